import Verif.Model.CmdlineState
import Verif.Model.Parsers
/-
`command_line_parser` as an object that a program configures by calls, keeps, and runs, perhaps more than once. The object keeps pointers
to the descriptions, so the program may go on changing those.
-/
namespace PO.ParserCalls

/-- A `const options_description*`. -/
inductive Ptr where
  | indeterminate
  | null
  | to (i : Nat)
  deriving DecidableEq, Repr

/-- The descriptions of the program. They outlive the parser here (see Model/Lifetime for those that do not). -/
structure Memory where
  desc : Nat → List OptionDesc
  positional : Nat → Positional

/-- `basic_command_line_parser<char>`: the members of `detail::cmdline` (detail/cmdline.hpp:137-150) and its own `m_desc`
(parsers.hpp:162). -/
structure Obj where
  args : List Str
  style : Nat
  cmdDesc : Option Nat
  positional : Option Nat
  allowUnregistered : Bool
  additional : Option (Str → Str × Str)
  styleParser : Option StyleParser
  desc : Ptr

/-- `cmdline::init` (src/cmdline.cpp:107-115); the two `function1` members are constructed empty. -/
def init (args : List Str) (desc : Ptr) : Obj where
  args := args
  style := Style.defaultStyle
  cmdDesc := none
  positional := none
  allowUnregistered := false
  additional := none
  styleParser := none
  desc := desc

/-- The two constructors. -/
inductive Constructor where
  | vector (args : List Str)
  | argv (argv : List Str)

/-- The constructor from a vector (detail/parsers.hpp:15-20) does not mention `m_desc`; that from `argc` and `argv` (23-29) sets it to null. -/
def construct : Constructor → Obj
  | .vector args => init args .indeterminate
  | .argv argv => init (argTokens argv) .null

/-- The calls, with changes of the descriptions in between. An empty `function1` is `none`. -/
inductive Call where
  | options (i : Nat)
  | positional (i : Nat)
  | style (n : Nat)
  | extraParser (f : Option (Str → Str × Str))
  | allowUnregistered
  | extraStyleParser (p : Option StyleParser)
  | changeDesc (i : Nat) (ds : List OptionDesc)
  | changePositional (i : Nat) (p : Positional)

structure State where
  mem : Memory
  obj : Obj

/-- What a call does (detail/parsers.hpp:32-80 with src/cmdline.cpp:117-131, 176-187, 703-713), and the exception it throws, if any. -/
def perform (s : State) : Call → State × Option Fail
  | .options i => ({ s with obj := { s.obj with cmdDesc := some i, desc := .to i } }, none)
  | .positional i => ({ s with obj := { s.obj with positional := some i } }, none)
  | .style n =>
    let n := if n = 0 then Style.defaultStyle else n
    match checkStyle n with
    | .error f => (s, some f)
    | .ok () => ({ s with obj := { s.obj with style := n } }, none)
  | .extraParser f => ({ s with obj := { s.obj with additional := f } }, none)
  | .allowUnregistered => ({ s with obj := { s.obj with allowUnregistered := true } }, none)
  | .extraStyleParser p => ({ s with obj := { s.obj with styleParser := p } }, none)
  | .changeDesc i ds => ({ s with mem := { s.mem with desc := fun j => if j = i then ds else s.mem.desc j } }, none)
  | .changePositional i p => ({ s with mem := { s.mem with positional := fun j => if j = i then p else s.mem.positional j } }, none)

/-- `parsed_options` (parsers.hpp:36-60). -/
structure Result where
  description : Ptr
  options : List Opt
  pre : Nat

/-- What `run` can do: read an indeterminate pointer, fail `assert(m_desc)`, or return or throw. -/
inductive Answer where
  | indeterminate
  | assertion
  | outcome (r : Except Fail Result)

/-- The `cmdline` of Model/Cmdline with the contents that the pointers lead to now. -/
def State.cmdline (s : State) (i : Nat) : Cmdline where
  style := s.obj.style
  allowUnregistered := s.obj.allowUnregistered
  desc := s.mem.desc i
  positional := s.obj.positional.map s.mem.positional
  additional := s.obj.additional
  styleParser := s.obj.styleParser

/-- `basic_command_line_parser<char>::run` (detail/parsers.hpp:84-98): `m_desc` is read first, then `cmdline::run` (src/cmdline.cpp:207-398)
asserts that its own `m_desc` is not null. -/
def State.run (s : State) : Answer :=
  match s.obj.desc with
  | .indeterminate => .indeterminate
  | d =>
    match s.obj.cmdDesc with
    | none => .assertion
    | some i =>
      match (s.cmdline i).run s.obj.args with
      | .error f => .outcome (.error f)
      | .ok os => .outcome (.ok { description := d, options := os, pre := (s.cmdline i).canonicalPrefix })

/-- What `run` leaves in `m_args`: nothing if it returns (the loop of src/cmdline.cpp:251-277 ends with an empty vector), and if it throws what
Model/CmdlineState says, but anything with a style parser of the program, which has the vector by reference. -/
def State.Leaves (s : State) (r : Except Fail Result) (left : List Str) : Prop :=
  match r with
  | .ok _ => left = []
  | .error _ => ∀ i, s.obj.cmdDesc = some i → s.obj.styleParser = none → left = ((s.cmdline i).runSt s.obj.args).2

/-- What happened: a call, with its exception if it threw one, or a run, with its outcome. -/
inductive Happening where
  | did (c : Call) (refused : Option Fail)
  | ran (r : Except Fail Result)

/-- One thing after the other, the program catching all exceptions. Nothing follows undefined behaviour. -/
inductive Trace : State → List Happening → State → Prop
  | nil (s : State) : Trace s [] s
  | call {s s' : State} {es : List Happening} (c : Call) : Trace s es s' →
      Trace s (es ++ [.did c (perform s' c).2]) (perform s' c).1
  | run {s s' : State} {es : List Happening} (r : Except Fail Result) (left : List Str) : Trace s es s' → s'.run = .outcome r →
      (∀ u, r ≠ .error (.ub u)) → s'.Leaves r left → Trace s (es ++ [.ran r]) { s' with obj := { s'.obj with args := left } }

end PO.ParserCalls
