import Verif.Model.Desc
import Verif.Model.Positional
/-
The command line parser: src/cmdline.cpp.
-/
namespace PO

/-- `INT_MAX`. -/
def intMax : Int := 2147483647

/-- `basic_option<char>` (option.hpp). -/
structure Opt where
  stringKey : Str := []
  positionKey : Int := -1
  value : List Str := []
  originalTokens : List Str := []
  unregistered : Bool := false
  caseInsensitive : Bool := false
  deriving DecidableEq, Repr

/-- A style parser: returns the options and the remaining tokens. -/
abbrev StyleParser := List Str → Except Fail (List Opt × List Str)

/-- State of `detail::cmdline` (detail/cmdline.hpp) without `m_args`. -/
structure Cmdline where
  style : Nat := Style.defaultStyle
  allowUnregistered : Bool := false
  desc : List OptionDesc
  positional : Option Positional := none
  additional : Option (Str → Str × Str) := none
  styleParser : Option StyleParser := none

/-- `style & bit`. -/
def active (style bit : Nat) : Bool := (style &&& bit) != 0

def msgLong : Str := str% "boost::program_options misconfiguration: choose one or other of 'command_line_style::long_allow_next' (whitespace separated arguments) or 'command_line_style::long_allow_adjacent' ('=' separated arguments) for long options."
def msgShort : Str := str% "boost::program_options misconfiguration: choose one or other of 'command_line_style::short_allow_next' (whitespace separated arguments) or 'command_line_style::short_allow_adjacent' ('=' separated arguments) for short options."
def msgDash : Str := str% "boost::program_options misconfiguration: choose one or other of 'command_line_style::allow_slash_for_short' (slashes) or 'command_line_style::allow_dash_for_short' (dashes) for short options."

/-- `cmdline::check_style` (src/cmdline.cpp:133-168). -/
def checkStyle (s : Nat) : Except Fail Unit :=
  let allowSomeLong := active s Style.allowLong || active s Style.allowLongDisguise
  if allowSomeLong && !active s Style.longAllowAdjacent && !active s Style.longAllowNext then
    .error (.invalidStyle msgLong)
  else if active s Style.allowShort && !active s Style.shortAllowAdjacent
      && !active s Style.shortAllowNext then
    .error (.invalidStyle msgShort)
  else if active s Style.allowShort && !active s Style.allowDashForShort
      && !active s Style.allowSlashForShort then
    .error (.invalidStyle msgDash)
  else .ok ()

namespace Cmdline

/-- `cmdline::style` (src/cmdline.cpp:117-125). Styles are non-negative here. -/
def setStyle (c : Cmdline) (style : Nat) : Except Fail Cmdline :=
  let s := if style = 0 then Style.defaultStyle else style
  match checkStyle s with
  | .error f => .error f
  | .ok () => .ok { c with style := s }

/-- `get_canonical_option_prefix` (src/cmdline.cpp:189-205). -/
def canonicalPrefix (c : Cmdline) : Nat :=
  if active c.style Style.allowLong then Style.allowLong
  else if active c.style Style.allowLongDisguise then Style.allowLongDisguise
  else if active c.style Style.allowShort && active c.style Style.allowDashForShort then
    Style.allowDashForShort
  else if active c.style Style.allowShort && active c.style Style.allowSlashForShort then
    Style.allowSlashForShort
  else 0

/-- The lookup with the flags of the style, as at src/cmdline.cpp:306, 418, 481, 646. -/
def lookup (c : Cmdline) (name : Str) : Except Fail (Option OptionDesc) :=
  findNothrow c.desc name (active c.style Style.allowGuessing)
    (active c.style Style.longCaseInsensitive) (active c.style Style.shortCaseInsensitive)

/-- `parse_long_option` (src/cmdline.cpp:512-546). -/
def parseLong (c : Cmdline) : StyleParser
  | [] => .error (.ub .emptyArgs)
  | tok :: rest =>
    if tok.length ≥ 3 ∧ tok[0]? = some '-' ∧ tok[1]? = some '-' then
      match findChar tok '=' with
      | some p =>
        let name := substr tok 2 (p - 2)
        let adjacent := tok.drop (p + 1)
        if adjacent = [] then
          .error (errSyntax .emptyAdjacentParameter name name c.canonicalPrefix)
        else .ok ([{ stringKey := name, value := [adjacent], originalTokens := [tok] }], rest)
      | none => .ok ([{ stringKey := tok.drop 2, originalTokens := [tok] }], rest)
    else .ok ([], tok :: rest)

/-- The lookup inside `parse_short_option` (src/cmdline.cpp:567-579). -/
def findShort (c : Cmdline) (name : Str) : Except Fail (Option OptionDesc) :=
  match findNothrow c.desc name false false (active c.style Style.shortCaseInsensitive) with
  | .error f => .error (f.addContext name name c.canonicalPrefix)
  | .ok d => .ok d

/-- Does the described option take no value, so that the rest of the token is a further group
(src/cmdline.cpp:583-584)? -/
def takesNoValue (c : Cmdline) (d : Option OptionDesc) : Bool :=
  match d with
  | some d => active c.style Style.allowSticky && d.semantic.maxTokens == 0
  | none => false

/-- The `for(;;)` loop of `parse_short_option` (src/cmdline.cpp:566-609). -/
def shortLoop (c : Cmdline) (tok : Str) (name : Str) : Str → Except Fail (List Opt)
  | [] =>
    match c.findShort name with
    | .error f => .error f
    | .ok _ => .ok [{ stringKey := name, originalTokens := [tok] }]
  | a :: adj =>
    match c.findShort name with
    | .error f => .error f
    | .ok d =>
      if c.takesNoValue d then
        match shortLoop c tok ['-', a] adj with
        | .error f => .error f
        | .ok os => .ok ({ stringKey := name } :: os)
      else .ok [{ stringKey := name, originalTokens := [tok], value := [a :: adj] }]

/-- `parse_short_option` (src/cmdline.cpp:549-613). -/
def parseShort (c : Cmdline) : StyleParser
  | [] => .error (.ub .emptyArgs)
  | tok :: rest =>
    if tok.length ≥ 2 ∧ tok[0]? = some '-' ∧ tok[1]? ≠ some '-' then
      match c.shortLoop tok (substr tok 0 2) (tok.drop 2) with
      | .error f => .error f
      | .ok os => .ok (os, rest)
    else .ok ([], tok :: rest)

/-- `parse_dos_option` (src/cmdline.cpp:615-634). -/
def parseDos : StyleParser
  | [] => .error (.ub .emptyArgs)
  | tok :: rest =>
    if tok.length ≥ 2 ∧ tok[0]? = some '/' then
      let adjacent := tok.drop 2
      .ok ([{ stringKey := '-' :: substr tok 1 1
              value := if adjacent = [] then [] else [adjacent]
              originalTokens := [tok] }], rest)
    else .ok ([], tok :: rest)

/-- The name looked up by `parse_disguised_long_option`: `tok.substr(1, tok.find('=') - 1)`. -/
def disguisedName (tok : Str) : Str :=
  match findChar tok '=' with
  | some p => substr tok 1 (p - 1)
  | none => tok.drop 1

/-- `args[0].insert(0, "-"); if (args[0][1] == '/') args[0][1] = '-';` (src/cmdline.cpp:651-653). -/
def undisguise (tok : Str) : Str :=
  match tok with
  | '/' :: r => '-' :: '-' :: r
  | t => '-' :: t

/-- `parse_disguised_long_option` (src/cmdline.cpp:636-665). In the handler `tok` refers to
`args[0]`, which has been rewritten if the exception comes from `parse_long_option`. -/
def parseDisguised (c : Cmdline) : StyleParser
  | [] => .error (.ub .emptyArgs)
  | tok :: rest =>
    if tok.length ≥ 2 ∧ ((tok[0]? = some '-' ∧ tok[1]? ≠ some '-') ∨
        (active c.style Style.allowSlashForShort = true ∧ tok[0]? = some '/')) then
      match c.lookup (disguisedName tok) with
      | .error f => .error (f.addContext tok tok c.canonicalPrefix)
      | .ok (some _) =>
        match c.parseLong (undisguise tok :: rest) with
        | .error f => .error (f.addContext (undisguise tok) (undisguise tok) c.canonicalPrefix)
        | .ok r => .ok r
      | .ok none => .ok ([], tok :: rest)
    else .ok ([], tok :: rest)

/-- `parse_terminator` (src/cmdline.cpp:667-685). -/
def parseTerminator : StyleParser
  | [] => .error (.ub .emptyArgs)
  | tok :: rest =>
    if tok = ['-', '-'] then
      .ok (rest.map (fun a => { value := [a], originalTokens := [a], positionKey := intMax }), [])
    else .ok ([], tok :: rest)

/-- `handle_additional_parser` (src/cmdline.cpp:687-701). -/
def parseAdditional (f : Str → Str × Str) : StyleParser
  | [] => .error (.ub .emptyArgs)
  | tok :: rest =>
    let r := f tok
    if r.1 = [] then .ok ([], tok :: rest)
    else .ok ([{ stringKey := r.1, value := if r.2 = [] then [] else [r.2] }], rest)

/-- The list of style parsers built by `run` (src/cmdline.cpp:224-248). -/
def parsers (c : Cmdline) : List StyleParser :=
  (match c.styleParser with | some p => [p] | none => []) ++
  (match c.additional with | some f => [parseAdditional f] | none => []) ++
  (if active c.style Style.allowLong then [c.parseLong] else []) ++
  (if active c.style Style.allowLongDisguise then [c.parseDisguised] else []) ++
  (if active c.style Style.allowShort && active c.style Style.allowDashForShort then [c.parseShort] else []) ++
  (if active c.style Style.allowShort && active c.style Style.allowSlashForShort then [parseDos] else []) ++
  [parseTerminator]

/-- The lookahead loop of `finish_option` (src/cmdline.cpp:472-477): the style parsers are tried on
a one-token vector until one returns options. -/
def lookahead : List StyleParser → List Str → Except Fail (List Opt)
  | [], _ => .ok []
  | p :: ps, args =>
    match p args with
    | .error f => .error f
    | .ok (os, args') => if os = [] then lookahead ps args' else .ok os

/-- The loop moving up to `n` tokens into the option (src/cmdline.cpp:467-492). `orig` is
`original_token_for_exceptions`. Exceptions get their context as in the handler at 503-508. -/
def grab (c : Cmdline) (ps : List StyleParser) : Nat → List Str → Opt → Str →
    Except Fail (Opt × List Str)
  | 0, other, opt, _ => .ok (opt, other)
  | _ + 1, [], opt, _ => .ok (opt, [])
  | n + 1, t :: ts, opt, orig =>
    match lookahead ps [t] with
    | .error f => .error (f.addContext opt.stringKey orig c.canonicalPrefix)
    | .ok [] =>
      c.grab ps n ts { opt with value := opt.value ++ [t], originalTokens := opt.originalTokens ++ [t] } orig
    | .ok (_ :: _) =>
      match c.lookup t with
      | .error f => .error (f.addContext opt.stringKey t c.canonicalPrefix)
      | .ok (some _) => .error ((errSyntax .missingParameter).addContext opt.stringKey t c.canonicalPrefix)
      | .ok none =>
        c.grab ps n ts { opt with value := opt.value ++ [t], originalTokens := opt.originalTokens ++ [t] } t

/-- `original_token_for_exceptions` on entry (src/cmdline.cpp:411-413). -/
def origFor (opt : Opt) : Str :=
  match opt.originalTokens with
  | t :: _ => t
  | [] => opt.stringKey

/-- `finish_option` (src/cmdline.cpp:400-510); returns the option and what is left of
`other_tokens`. -/
def finishOption (c : Cmdline) (ps : List StyleParser) (opt : Opt) (other : List Str) :
    Except Fail (Opt × List Str) :=
  if opt.stringKey = [] then .ok (opt, other)
  else
    let orig := origFor opt
    match c.lookup opt.stringKey with
    | .error f => .error (f.addContext opt.stringKey orig c.canonicalPrefix)
    | .ok none =>
      if c.allowUnregistered then .ok ({ opt with unregistered := true }, other)
      else .error (errUnknown.addContext opt.stringKey orig c.canonicalPrefix)
    | .ok (some d) =>
      let opt := { opt with stringKey := d.key opt.stringKey }
      if opt.value.length + other.length ≥ d.semantic.minTokens then
        if opt.value ≠ [] ∧ d.semantic.maxTokens = 0 then
          .error ((errSyntax .extraParameter).addContext opt.stringKey orig c.canonicalPrefix)
        else c.grab ps (d.semantic.minTokens - opt.value.length) other opt orig
      else .error ((errSyntax .missingParameter).addContext opt.stringKey orig c.canonicalPrefix)

/-- Finishing the options returned by one style parser (src/cmdline.cpp:262-274): all but the last
see an empty token vector, the last one sees `args`. -/
def finishAll (c : Cmdline) (ps : List StyleParser) : List Opt → List Str →
    Except Fail (List Opt × List Str)
  | [], args => .ok ([], args)
  | [o], args =>
    match c.finishOption ps o args with
    | .error f => .error f
    | .ok (o', args') => .ok ([o'], args')
  | o :: os, args =>
    match c.finishOption ps o [] with
    | .error f => .error f
    | .ok (o', _) =>
      match c.finishAll ps os args with
      | .error f => .error f
      | .ok (os', args') => .ok (o' :: os', args')

/-- The inner `for` over the style parsers and the fallback making a positional option
(src/cmdline.cpp:252-289), i.e. one iteration of the `while`: returns the options pushed to
`result` and the new `args`. -/
def tryParsers (c : Cmdline) (all : List StyleParser) : List StyleParser → List Str →
    Except Fail (List Opt × List Str)
  | [], [] => .error (.ub .emptyArgs)
  | [], a :: args => .ok ([{ value := [a], originalTokens := [a] }], args)
  | p :: ps, args =>
    match p args with
    | .error f => .error f
    | .ok (next, args1) =>
      match c.finishAll all next args1 with
      | .error f => .error f
      | .ok (next', args2) =>
        if args2.length ≠ args.length then .ok (next', args2)
        else
          match c.tryParsers all ps args2 with
          | .error f => .error f
          | .ok (more, args3) => .ok (next' ++ more, args3)

def step (c : Cmdline) (args : List Str) : Except Fail (List Opt × List Str) :=
  c.tryParsers c.parsers c.parsers args

/-- The `while` loop of `run` (src/cmdline.cpp:252-289), at most `fuel` iterations. -/
def loop (c : Cmdline) : Nat → List Str → Except Fail (List Opt)
  | _, [] => .ok []
  | 0, _ :: _ => .error .fuel
  | fuel + 1, a :: args =>
    match c.step (a :: args) with
    | .error f => .error f
    | .ok (os, args') =>
      match c.loop fuel args' with
      | .error f => .error f
      | .ok more => .ok (os ++ more)

/-- `can_take_more` (src/cmdline.cpp:329): the difference converted to `int`; a negative value
counts down without reaching zero, so it is no limit (`none`). -/
def takeLimit (maxTokens size : Nat) : Option Nat :=
  if maxTokens - size < 2147483648 then some (maxTokens - size) else none

/-- The inner loop of the second pass (src/cmdline.cpp:330-352): returns the extended option and the
number of options absorbed. -/
def absorb : Option Nat → Opt → List Opt → Except Fail (Opt × Nat)
  | _, o, [] => .ok (o, 0)
  | lim, o, p :: ps =>
    if lim = some 0 then .ok (o, 0)
    else if p.stringKey ≠ [] then .ok (o, 0)
    else if p.positionKey = intMax then .ok (o, 0)
    else
      match p.value with
      | [v] =>
        match p.originalTokens with
        | [t] =>
          match absorb (lim.map (· - 1))
              { o with value := o.value ++ [v], originalTokens := o.originalTokens ++ [t] } ps with
          | .error f => .error f
          | .ok (o', k) => .ok (o', k + 1)
        | _ => .error (.ub .originalNotSingle)
      | _ => .error (.ub .valueNotSingle)

/-- The second pass (src/cmdline.cpp:294-356); the first argument is the number of entries still to
be skipped because of `i = j-1`. -/
def regroup (c : Cmdline) : Nat → List Opt → Except Fail (List Opt)
  | _, [] => .ok []
  | k + 1, _ :: rest => c.regroup k rest
  | 0, o :: rest =>
    let cont (o' : Opt) (k : Nat) : Except Fail (List Opt) :=
      match c.regroup k rest with
      | .error f => .error f
      | .ok os => .ok (o' :: os)
    if o.stringKey = [] then cont o 0
    else
      match c.lookup o.stringKey with
      | .error (.opt e) =>
        match o.originalTokens with
        | [] => .error (.ub .emptyOriginalTokens)
        | t :: _ => .error (.opt (e.addContext o.stringKey t c.canonicalPrefix))
      | .error f => .error f
      | .ok none => cont o 0
      | .ok (some d) =>
        if d.semantic.minTokens < d.semantic.maxTokens ∧ o.value.length < d.semantic.maxTokens then
          match absorb (takeLimit d.semantic.maxTokens o.value.length) o rest with
          | .error f => .error f
          | .ok (o', k) => cont o' k
        else cont o 0

/-- Position keys (src/cmdline.cpp:360-364). -/
def assignPositions : Int → List Opt → List Opt
  | _, [] => []
  | n, o :: os =>
    if o.stringKey = [] then { o with positionKey := n } :: assignPositions (n + 1) os
    else o :: assignPositions n os

/-- Names of positional options (src/cmdline.cpp:366-380). -/
def namePositional (p : Positional) : Nat → List Opt → Except Fail (List Opt)
  | _, [] => .ok []
  | position, o :: os =>
    if o.positionKey ≠ -1 then
      if p.full position then .error .tooManyPositional
      else
        match p.nameForPosition position with
        | .error f => .error f
        | .ok n =>
          match namePositional p (position + 1) os with
          | .error f => .error f
          | .ok os' => .ok ({ o with stringKey := n } :: os')
    else
      match namePositional p position os with
      | .error f => .error f
      | .ok os' => .ok (o :: os')

/-- Case flag (src/cmdline.cpp:383-395). -/
def setCase (c : Cmdline) (o : Opt) : Opt :=
  if o.stringKey.length > 2 ∨ (o.stringKey.length > 1 ∧ o.stringKey[0]? ≠ some '-') then
    { o with caseInsensitive := active c.style Style.longCaseInsensitive }
  else { o with caseInsensitive := active c.style Style.shortCaseInsensitive }

/-- The `if (m_positional)` statement (src/cmdline.cpp:366). -/
def applyPositional (c : Cmdline) (os : List Opt) : Except Fail (List Opt) :=
  match c.positional with
  | none => .ok os
  | some p => namePositional p 0 os

/-- Everything in `run` after the first pass (src/cmdline.cpp:291-397). -/
def finalize (c : Cmdline) (result : List Opt) : Except Fail (List Opt) :=
  match c.regroup 0 result with
  | .error f => .error f
  | .ok r2 =>
    let r3 := assignPositions 0 r2
    match c.applyPositional r3 with
    | .error f => .error f
    | .ok r4 => .ok (r4.map c.setCase)

/-- `cmdline::run` (src/cmdline.cpp:207-398) with at most `fuel` iterations of the `while`. -/
def runFuel (c : Cmdline) (fuel : Nat) (args : List Str) : Except Fail (List Opt) :=
  match c.loop fuel args with
  | .error f => .error f
  | .ok result => c.finalize result

/-- `cmdline::run`; that this fuel is enough whenever no custom style parser lengthens the token
list is property C10. -/
def run (c : Cmdline) (args : List Str) : Except Fail (List Opt) := c.runFuel (args.length + 1) args

end Cmdline
end PO
