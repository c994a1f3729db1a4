import Verif.Model.Cmdline
/-
The calls of the extra parser (`extra_parser`, `set_additional_parser`): a function of the program, which may keep a state and may
throw. What it answers is given by the tokens it has been called with before and the token it is called with now. The functions of
Model/Cmdline that call it are repeated here, with these tokens. No custom style parser.
-/
namespace PO
namespace ExtraCalls

/-- An extra parser: what it answers (or throws), after calls with the tokens of the list. -/
abbrev Talk := List Str → Str → Except Fail (Str × Str)

/-- A style parser, with the calls made so far, before and after. -/
abbrev Parser := List Str → List Str → Except Fail (List Opt × List Str) × List Str

/-- A style parser of the library does not call the extra parser. -/
def silent (p : StyleParser) : Parser := fun h args => (p args, h)

/-- `handle_additional_parser` (src/cmdline.cpp:687-701) -/
def ask (g : Talk) : Parser
  | h, [] => (.error (.ub .emptyArgs), h)
  | h, tok :: rest =>
    match g h tok with
    | .error f => (.error f, h ++ [tok])
    | .ok r =>
      (if r.1 = [] then .ok ([], tok :: rest) else .ok ([{ stringKey := r.1, value := if r.2 = [] then [] else [r.2] }], rest), h ++ [tok])

/-- The style parsers (src/cmdline.cpp:224-248) without a custom one; `parsers` gives those of the library. -/
def parsers (c : Cmdline) (g : Talk) : List Parser :=
  ask g :: ({ c with additional := none, styleParser := none } : Cmdline).parsers.map silent

/-- The lookahead loop of `finish_option` (src/cmdline.cpp:472-477) -/
def lookahead : List Parser → List Str → List Str → Except Fail (List Opt) × List Str
  | [], h, _ => (.ok [], h)
  | p :: ps, h, args =>
    match p h args with
    | (.error f, h) => (.error f, h)
    | (.ok (os, args'), h) => if os = [] then lookahead ps h args' else (.ok os, h)

/-- The loop moving up to `n` tokens into the option (src/cmdline.cpp:467-492) -/
def grab (c : Cmdline) (ps : List Parser) : Nat → List Str → List Str → Opt → Str → Except Fail (Opt × List Str) × List Str
  | 0, h, other, opt, _ => (.ok (opt, other), h)
  | _ + 1, h, [], opt, _ => (.ok (opt, []), h)
  | n + 1, h, t :: ts, opt, orig =>
    match lookahead ps h [t] with
    | (.error f, h) => (.error (f.addContext opt.stringKey orig c.canonicalPrefix), h)
    | (.ok [], h) => grab c ps n h ts { opt with value := opt.value ++ [t], originalTokens := opt.originalTokens ++ [t] } orig
    | (.ok (_ :: _), h) =>
      match c.lookup t with
      | .error f => (.error (f.addContext opt.stringKey t c.canonicalPrefix), h)
      | .ok (some _) => (.error ((errSyntax .missingParameter).addContext opt.stringKey t c.canonicalPrefix), h)
      | .ok none => grab c ps n h ts { opt with value := opt.value ++ [t], originalTokens := opt.originalTokens ++ [t] } t

/-- `finish_option` (src/cmdline.cpp:400-510) -/
def finishOption (c : Cmdline) (ps : List Parser) (h : List Str) (opt : Opt) (other : List Str) : Except Fail (Opt × List Str) × List Str :=
  if opt.stringKey = [] then (.ok (opt, other), h)
  else
    let orig := Cmdline.origFor opt
    match c.lookup opt.stringKey with
    | .error f => (.error (f.addContext opt.stringKey orig c.canonicalPrefix), h)
    | .ok none =>
      if c.allowUnregistered then (.ok ({ opt with unregistered := true }, other), h)
      else (.error (errUnknown.addContext opt.stringKey orig c.canonicalPrefix), h)
    | .ok (some d) =>
      let opt := { opt with stringKey := d.key opt.stringKey }
      if opt.value.length + other.length ≥ d.semantic.minTokens then
        if opt.value ≠ [] ∧ d.semantic.maxTokens = 0 then
          (.error ((errSyntax .extraParameter).addContext opt.stringKey orig c.canonicalPrefix), h)
        else grab c ps (d.semantic.minTokens - opt.value.length) h other opt orig
      else (.error ((errSyntax .missingParameter).addContext opt.stringKey orig c.canonicalPrefix), h)

/-- Finishing the options returned by one style parser (src/cmdline.cpp:262-274) -/
def finishAll (c : Cmdline) (ps : List Parser) : List Str → List Opt → List Str → Except Fail (List Opt × List Str) × List Str
  | h, [], args => (.ok ([], args), h)
  | h, [o], args =>
    match finishOption c ps h o args with
    | (.error f, h) => (.error f, h)
    | (.ok (o', args'), h) => (.ok ([o'], args'), h)
  | h, o :: os, args =>
    match finishOption c ps h o [] with
    | (.error f, h) => (.error f, h)
    | (.ok (o', _), h) =>
      match finishAll c ps h os args with
      | (.error f, h) => (.error f, h)
      | (.ok (os', args'), h) => (.ok (o' :: os', args'), h)

/-- One iteration of the `while` (src/cmdline.cpp:252-289) -/
def tryParsers (c : Cmdline) (all : List Parser) : List Parser → List Str → List Str → Except Fail (List Opt × List Str) × List Str
  | [], h, [] => (.error (.ub .emptyArgs), h)
  | [], h, a :: args => (.ok ([{ value := [a], originalTokens := [a] }], args), h)
  | p :: ps, h, args =>
    match p h args with
    | (.error f, h) => (.error f, h)
    | (.ok (next, args1), h) =>
      match finishAll c all h next args1 with
      | (.error f, h) => (.error f, h)
      | (.ok (next', args2), h) =>
        if args2.length ≠ args.length then (.ok (next', args2), h)
        else
          match tryParsers c all ps h args2 with
          | (.error f, h) => (.error f, h)
          | (.ok (more, args3), h) => (.ok (next' ++ more, args3), h)

/-- The `while` loop of `run` (src/cmdline.cpp:252-289), at most `fuel` iterations. -/
def loop (c : Cmdline) (g : Talk) : Nat → List Str → List Str → Except Fail (List Opt) × List Str
  | _, h, [] => (.ok [], h)
  | 0, h, _ :: _ => (.error .fuel, h)
  | fuel + 1, h, a :: args =>
    match tryParsers c (parsers c g) (parsers c g) h (a :: args) with
    | (.error f, h) => (.error f, h)
    | (.ok (os, args'), h) =>
      match loop c g fuel h args' with
      | (.error f, h) => (.error f, h)
      | (.ok more, h) => (.ok (os ++ more), h)

/-- `cmdline::run` (src/cmdline.cpp:207-398): what it returns, and the calls of the extra parser. What comes after the `while` does not
call it. -/
def run (c : Cmdline) (g : Talk) (args : List Str) : Except Fail (List Opt) × List Str :=
  match loop c g (args.length + 1) [] args with
  | (.error f, h) => (.error f, h)
  | (.ok result, h) => (c.finalize result, h)

end ExtraCalls
end PO
