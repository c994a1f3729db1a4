import Verif.Model.Parsers
/-
The other functions with assertions, as they are compiled with `NDEBUG`. `Fail.ub` is only what is undefined without assertions.
-/
namespace PO.Release

/-- `set_names` (src/options_description.cpp:191-220) without the assertion at 201: the option has no long name. -/
def setNames (d : OptionDesc) (names : Str) : OptionDesc :=
  let ns := getlines ',' names
  if ns.length > 1 then
    match ns.getLast? with
    | some [c] =>
      let longs := ns.dropLast
      { d with shortName := ['-', c], longNames := if longs = [[]] then [] else longs }
    | _ => { d with longNames := ns }
  else { d with longNames := ns }

/-- `positional_options_description::add` (src/positional_options.cpp:22-33) without the assertion at 25. -/
def addPositional (p : Positional) (name : Str) (maxCount : Int) : Except Fail Positional :=
  if maxCount = -1 then .ok { p with trailing := name }
  else
    let n := (p.names.length : Int) + maxCount
    if n < 0 then .error .lengthError
    else .ok { p with names := p.names.take n.toNat ++ List.replicate (n.toNat - p.names.length) name }

/-- `name_for_position` (src/positional_options.cpp:42-51) without the assertion at 45. -/
def nameForPosition (p : Positional) (position : Nat) : Str :=
  match p.names[position]? with
  | some n => n
  | none => p.trailing

/-- `environment_iterator::get` (environment_iterator.hpp:33-46) without the assertion at 40: `npos + 1` is 0. -/
def splitEnv (s : Str) : Str × Str :=
  match findChar s '=' with
  | none => (s, s)
  | some n => (s.take n, s.drop (n + 1))

/-- `parse_environment` (src/parsers.cpp:200-218). -/
def parseEnvironmentLoop (mapper : Str → Str) : List Str → List Opt
  | [] => []
  | e :: es =>
    let (n, v) := splitEnv e
    if mapper n = [] then parseEnvironmentLoop mapper es
    else { stringKey := mapper n, value := [v] } :: parseEnvironmentLoop mapper es

def parseEnvironment (environ : List Str) (desc : List OptionDesc) (mapper : Str → Str) : Parsed :=
  { desc, options := parseEnvironmentLoop mapper environ }

/-- The inner loop of the second pass (src/cmdline.cpp:330-352) without the assertions at 345 and 349: `opt2.value[0]` and
`opt2.original_tokens[0]` are there, or not. -/
def absorb : Option Nat → Opt → List Opt → Except Fail (Opt × Nat)
  | _, o, [] => .ok (o, 0)
  | lim, o, p :: ps =>
    if lim = some 0 then .ok (o, 0)
    else if p.stringKey ≠ [] then .ok (o, 0)
    else if p.positionKey = intMax then .ok (o, 0)
    else
      match p.value with
      | [] => .error (.ub .valueNotSingle)
      | v :: _ =>
        match p.originalTokens with
        | [] => .error (.ub .originalNotSingle)
        | t :: _ =>
          match absorb (lim.map (· - 1)) { o with value := o.value ++ [v], originalTokens := o.originalTokens ++ [t] } ps with
          | .error f => .error f
          | .ok (o', k) => .ok (o', k + 1)

/-- The second pass (src/cmdline.cpp:294-356). -/
def regroup (c : Cmdline) : Nat → List Opt → Except Fail (List Opt)
  | _, [] => .ok []
  | k + 1, _ :: rest => regroup c k rest
  | 0, o :: rest =>
    let cont (o' : Opt) (k : Nat) : Except Fail (List Opt) :=
      match regroup c k rest with
      | .error f => .error f
      | .ok os => .ok (o' :: os)
    if o.stringKey = [] then cont o 0
    else
      match c.lookup o.stringKey with
      | .error (.opt e) =>
        match o.originalTokens with
        | [] => .error (.ub .emptyOriginalTokens)
        | t :: _ => .error (.opt (e.addContext o.stringKey t c.canonicalPrefix))
      | .error f => .error f
      | .ok none => cont o 0
      | .ok (some d) =>
        if d.semantic.minTokens < d.semantic.maxTokens ∧ o.value.length < d.semantic.maxTokens then
          match absorb (Cmdline.takeLimit d.semantic.maxTokens o.value.length) o rest with
          | .error f => .error f
          | .ok (o', k) => cont o' k
        else cont o 0

/-- Names of positional options (src/cmdline.cpp:366-380). -/
def namePositional (p : Positional) : Nat → List Opt → Except Fail (List Opt)
  | _, [] => .ok []
  | position, o :: os =>
    if o.positionKey ≠ -1 then
      if p.full position then .error .tooManyPositional
      else
        match namePositional p (position + 1) os with
        | .error f => .error f
        | .ok os' => .ok ({ o with stringKey := nameForPosition p position } :: os')
    else
      match namePositional p position os with
      | .error f => .error f
      | .ok os' => .ok (o :: os')

/-- The `if (m_positional)` statement (src/cmdline.cpp:366). -/
def applyPositional (c : Cmdline) (os : List Opt) : Except Fail (List Opt) :=
  match c.positional with
  | none => .ok os
  | some p => namePositional p 0 os

/-- `cmdline::run` (src/cmdline.cpp:207-398). The first pass has no assertions but the one for `m_desc` (222), which a parser always sets. -/
def run (c : Cmdline) (args : List Str) : Except Fail (List Opt) :=
  match c.loop (args.length + 1) args with
  | .error f => .error f
  | .ok result =>
    match regroup c 0 result with
    | .error f => .error f
    | .ok r2 =>
      match applyPositional c (Cmdline.assignPositions 0 r2) with
      | .error f => .error f
      | .ok r4 => .ok (r4.map c.setCase)

end PO.Release
