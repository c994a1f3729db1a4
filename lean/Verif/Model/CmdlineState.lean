import Verif.Model.Cmdline
/-
The command line parser as an object: `run` works on the member `m_args` (src/cmdline.cpp:251: `vector<string>& args = m_args;`),
so what is left in it after `run` returns or throws is what the next `run` starts with. The functions of Model/Cmdline are repeated
here, returning what is left of the vector also when they throw.
-/
namespace PO

/-- A style parser that also says what it leaves in the vector when it throws. -/
abbrev StParser := List Str → Except Fail (List Opt) × List Str

namespace Cmdline

/-- A style parser that throws only before it changes the vector. That holds for `parse_long_option` (the `throw` at
src/cmdline.cpp:527 is before the `erase` at 543), `parse_short_option` (exceptions come from the lookup at 571; every `erase`, at 592
and 606, leaves the loop), `parse_dos_option`, `parse_terminator` and `handle_additional_parser` (no exceptions). -/
def keeping (p : StyleParser) : StParser := fun args =>
  match p args with
  | .error f => (.error f, args)
  | .ok (os, args') => (.ok os, args')

/-- `parse_disguised_long_option` (src/cmdline.cpp:636-665): the token is rewritten in place (651-653) before
`parse_long_option` is called, and stays so if that throws. -/
def parseDisguisedSt (c : Cmdline) : StParser
  | [] => (.error (.ub .emptyArgs), [])
  | tok :: rest =>
    if tok.length ≥ 2 ∧ ((tok[0]? = some '-' ∧ tok[1]? ≠ some '-') ∨
        (active c.style Style.allowSlashForShort = true ∧ tok[0]? = some '/')) then
      match c.lookup (disguisedName tok) with
      | .error f => (.error (f.addContext tok tok c.canonicalPrefix), tok :: rest)
      | .ok (some _) =>
        match keeping c.parseLong (undisguise tok :: rest) with
        | (.error f, left) => (.error (f.addContext (undisguise tok) (undisguise tok) c.canonicalPrefix), left)
        | r => r
      | .ok none => (.ok [], tok :: rest)
    else (.ok [], tok :: rest)

/-- The style parsers (src/cmdline.cpp:224-248) without a custom one. -/
def parsersSt (c : Cmdline) : List StParser :=
  (match c.additional with | some f => [keeping (parseAdditional f)] | none => []) ++
  (if active c.style Style.allowLong then [keeping c.parseLong] else []) ++
  (if active c.style Style.allowLongDisguise then [c.parseDisguisedSt] else []) ++
  (if active c.style Style.allowShort && active c.style Style.allowDashForShort then [keeping c.parseShort] else []) ++
  (if active c.style Style.allowShort && active c.style Style.allowSlashForShort then [keeping parseDos] else []) ++
  [keeping parseTerminator]

/-- The lookahead of `finish_option` (src/cmdline.cpp:472-477); it works on a vector of its own. -/
def lookaheadSt : List StParser → List Str → Except Fail (List Opt)
  | [], _ => .ok []
  | p :: ps, args =>
    match p args with
    | (.error f, _) => .error f
    | (.ok os, args') => if os = [] then lookaheadSt ps args' else .ok os

/-- The loop of `finish_option` (src/cmdline.cpp:467-492): a token is erased (491) after it has been looked at. -/
def grabSt (c : Cmdline) (ps : List StParser) : Nat → List Str → Opt → Str → Except Fail Opt × List Str
  | 0, other, opt, _ => (.ok opt, other)
  | _ + 1, [], opt, _ => (.ok opt, [])
  | n + 1, t :: ts, opt, orig =>
    match lookaheadSt ps [t] with
    | .error f => (.error (f.addContext opt.stringKey orig c.canonicalPrefix), t :: ts)
    | .ok [] =>
      c.grabSt ps n ts { opt with value := opt.value ++ [t], originalTokens := opt.originalTokens ++ [t] } orig
    | .ok (_ :: _) =>
      match c.lookup t with
      | .error f => (.error (f.addContext opt.stringKey t c.canonicalPrefix), t :: ts)
      | .ok (some _) => (.error ((errSyntax .missingParameter).addContext opt.stringKey t c.canonicalPrefix), t :: ts)
      | .ok none =>
        c.grabSt ps n ts { opt with value := opt.value ++ [t], originalTokens := opt.originalTokens ++ [t] } t

/-- `finish_option` (src/cmdline.cpp:400-510). -/
def finishOptionSt (c : Cmdline) (ps : List StParser) (opt : Opt) (other : List Str) : Except Fail Opt × List Str :=
  if opt.stringKey = [] then (.ok opt, other)
  else
    let orig := origFor opt
    match c.lookup opt.stringKey with
    | .error f => (.error (f.addContext opt.stringKey orig c.canonicalPrefix), other)
    | .ok none =>
      if c.allowUnregistered then (.ok { opt with unregistered := true }, other)
      else (.error (errUnknown.addContext opt.stringKey orig c.canonicalPrefix), other)
    | .ok (some d) =>
      let opt := { opt with stringKey := d.key opt.stringKey }
      if opt.value.length + other.length ≥ d.semantic.minTokens then
        if opt.value ≠ [] ∧ d.semantic.maxTokens = 0 then
          (.error ((errSyntax .extraParameter).addContext opt.stringKey orig c.canonicalPrefix), other)
        else c.grabSt ps (d.semantic.minTokens - opt.value.length) other opt orig
      else (.error ((errSyntax .missingParameter).addContext opt.stringKey orig c.canonicalPrefix), other)

/-- src/cmdline.cpp:262-274. -/
def finishAllSt (c : Cmdline) (ps : List StParser) : List Opt → List Str → Except Fail (List Opt) × List Str
  | [], args => (.ok [], args)
  | [o], args =>
    match c.finishOptionSt ps o args with
    | (.error f, args') => (.error f, args')
    | (.ok o', args') => (.ok [o'], args')
  | o :: os, args =>
    match c.finishOptionSt ps o [] with
    | (.error f, _) => (.error f, args)
    | (.ok o', _) =>
      match c.finishAllSt ps os args with
      | (.error f, args') => (.error f, args')
      | (.ok os', args') => (.ok (o' :: os'), args')

/-- One iteration of the `while` (src/cmdline.cpp:252-289). -/
def tryParsersSt (c : Cmdline) (all : List StParser) : List StParser → List Str → Except Fail (List Opt) × List Str
  | [], [] => (.error (.ub .emptyArgs), [])
  | [], a :: args => (.ok [{ value := [a], originalTokens := [a] }], args)
  | p :: ps, args =>
    match p args with
    | (.error f, args1) => (.error f, args1)
    | (.ok next, args1) =>
      match c.finishAllSt all next args1 with
      | (.error f, args2) => (.error f, args2)
      | (.ok next', args2) =>
        if args2.length ≠ args.length then (.ok next', args2)
        else
          match c.tryParsersSt all ps args2 with
          | (.error f, args3) => (.error f, args3)
          | (.ok more, args3) => (.ok (next' ++ more), args3)

/-- The `while` (src/cmdline.cpp:252-289). -/
def loopSt (c : Cmdline) : Nat → List Str → Except Fail (List Opt) × List Str
  | _, [] => (.ok [], [])
  | 0, a :: args => (.error .fuel, a :: args)
  | fuel + 1, a :: args =>
    match c.tryParsersSt c.parsersSt c.parsersSt (a :: args) with
    | (.error f, left) => (.error f, left)
    | (.ok os, args') =>
      match c.loopSt fuel args' with
      | (.error f, left) => (.error f, left)
      | (.ok more, left) => (.ok (os ++ more), left)

/-- `cmdline::run` (src/cmdline.cpp:207-398) on an object with these `m_args` and no custom style parser: the outcome, and `m_args`
afterwards. The second pass does not touch them. -/
def runSt (c : Cmdline) (args : List Str) : Except Fail (List Opt) × List Str :=
  match c.loopSt (args.length + 1) args with
  | (.error f, left) => (.error f, left)
  | (.ok result, left) => (c.finalize result, left)

/-- The same object run again and again, whatever happens: `m_args` before each run. -/
def rerun (c : Cmdline) (args : List Str) : Nat → List Str
  | 0 => args
  | n + 1 => (c.runSt (c.rerun args n)).2

end Cmdline
end PO
