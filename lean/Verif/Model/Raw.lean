import Verif.Model.Cmdline
/-
The functions of Model/Cmdline.lean, Model/Desc.lean and Model/Err.lean once more, statement by statement as in the C++
code: with indices instead of patterns, and with every access to a string or vector checked. That this is the same as the
other model, and where an access can be out of range, is property C91.
-/
namespace PO

/-- An access that the C++ code must not make, or that throws `std::out_of_range`. -/
inductive Oob
  /-- `v[i]`, `front()`, `back()`, `*begin()`, `*rbegin()` or `erase(begin())` outside the container -/
  | index
  /-- `substr(pos, n)`, `erase(pos, n)` or `replace(pos, n, …)` with `pos > size()` -/
  | pos
  /-- an iterator is dereferenced at or moved beyond the ends of its range -/
  | iter
  /-- a difference of unsigned numbers is below zero -/
  | wrap
  deriving DecidableEq, Repr

inductive RawFail
  | oob (o : Oob)
  | fail (f : Fail)
  deriving DecidableEq, Repr

abbrev Raw := Except RawFail

namespace Raw

/-- The accesses among the undefined behaviours of the other model; the others are failed assertions. -/
def access : UB → Option Oob
  | .emptyArgs => some .index
  | .emptyOriginalTokens => some .index
  | .emptySection => some .index
  | .noAlternatives => some .index
  | .noLongName => some .index
  | _ => none

/-- What an outcome of the other model is here; also a call of a function that is only modelled there. -/
def of {α : Type} : Except Fail α → Raw α
  | .ok x => .ok x
  | .error (.ub u) =>
    match access u with
    | some o => .error (.oob o)
    | none => .error (.fail (.ub u))
  | .error f => .error (.fail f)

/-- `v[i]`. -/
def get {α : Type} (v : List α) (i : Nat) : Raw α :=
  match v[i]? with
  | some x => .ok x
  | none => .error (.oob .index)

/-- `v.back()`, `*v.rbegin()`. -/
def back {α : Type} (v : List α) : Raw α :=
  match v.getLast? with
  | some x => .ok x
  | none => .error (.oob .index)

/-- `v.erase(v.begin())`. -/
def popFront {α : Type} : List α → Raw (List α)
  | [] => .error (.oob .index)
  | _ :: v => .ok v

/-- `v.pop_back()`. -/
def popBack {α : Type} (v : List α) : Raw (List α) :=
  if v = [] then .error (.oob .index) else .ok v.dropLast

/-- `s.substr(pos, n)`. -/
def substr (s : Str) (pos n : Nat) : Raw Str :=
  if pos ≤ s.length then .ok ((s.drop pos).take n) else .error (.oob .pos)

/-- `s.substr(pos)`. -/
def substrFrom (s : Str) (pos : Nat) : Raw Str :=
  if pos ≤ s.length then .ok (s.drop pos) else .error (.oob .pos)

/-- `a - b` for unsigned numbers. -/
def sub (a b : Nat) : Raw Nat := if b ≤ a then .ok (a - b) else .error (.oob .wrap)

/-! ### src/options_description.cpp -/

/-- `tolower_` (src/options_description.cpp:34-43) from index `i` on. -/
def lowerFrom (str : Str) (i : Nat) (result : Str) : Raw Str :=
  if i < str.length then
    match get str i with
    | .error e => .error e
    | .ok c => lowerFrom str (i + 1) (result ++ [c.toLower])
  else .ok result
termination_by str.length - i

def lower (str : Str) : Raw Str := lowerFrom str 0 []

/-- The loop of `match` (src/options_description.cpp:83-113). -/
def matchLoop (option : Str) (approx longIcase : Bool) : List Str → MatchResult → Raw MatchResult
  | [], result => .ok result
  | it :: rest, result => do
    let longName ← (if longIcase then lower it else pure it)
    if longName ≠ [] then
      let last ← back longName
      let result ←
        (if result = .noMatch ∧ last = '*' then do
          let n ← sub longName.length 1
          let stem ← substr longName 0 n
          pure (if findSub option stem = some 0 then .approximateMatch else result)
        else pure result)
      if longName = option then return .fullMatch
      else if approx then
        if findSub longName option = some 0 then matchLoop option approx longIcase rest .approximateMatch
        else matchLoop option approx longIcase rest result
      else matchLoop option approx longIcase rest result
    else matchLoop option approx longIcase rest result

/-- `option_description::match` (src/options_description.cpp:74-126). -/
def «match» (d : OptionDesc) (option : Str) (approx longIcase shortIcase : Bool) : Raw MatchResult := do
  let localOption ← (if longIcase then lower option else pure option)
  let result ← matchLoop localOption approx longIcase d.longNames .noMatch
  if result ≠ .fullMatch then
    let localShort ← (if shortIcase then lower d.shortName else pure d.shortName)
    if localShort = localOption then return .fullMatch else return result
  else return result

/-- `canonical_display_name` (src/options_description.cpp:149-172). -/
def canonicalDisplayName (d : OptionDesc) (prefixStyle : Nat) : Raw Str := do
  if d.longNames ≠ [] ∧ prefixStyle = Style.allowLong then return str% "--" ++ (← get d.longNames 0)
  if d.longNames ≠ [] ∧ prefixStyle = Style.allowLongDisguise then return str% "-" ++ (← get d.longNames 0)
  if d.shortName.length = 2 ∧ prefixStyle = Style.allowSlashForShort then return ['/', ← get d.shortName 1]
  if d.shortName.length = 2 ∧ prefixStyle = Style.allowDashForShort then return ['-', ← get d.shortName 1]
  if d.longNames ≠ [] then get d.longNames 0 else return d.shortName

/-- `set_names` (src/options_description.cpp:191-220); the names have been read into `longNames`. -/
def setNames (d : OptionDesc) (names : Str) : Raw OptionDesc := do
  let longNames := getlines ',' names
  if longNames = [] then throw (.fail (.ub .noNames))
  if longNames.length > 1 then
    let lastName ← back longNames
    if lastName.length = 1 then
      let longNames ← popBack longNames
      if longNames.length = 1 then
        let first ← get longNames 0
        if first = [] then return { d with shortName := '-' :: lastName, longNames := [] }
      return { d with shortName := '-' :: lastName, longNames }
  return { d with longNames }

/-- `format_name` (src/options_description.cpp:234-245). -/
def formatName (d : OptionDesc) : Raw Str := do
  if d.shortName ≠ [] then
    if d.longNames = [] then return d.shortName
    else return d.shortName ++ str% " [ --" ++ (← get d.longNames 0) ++ str% " ]"
  return str% "--" ++ (← get d.longNames 0)

/-! ### src/cmdline.cpp -/

/-- A style parser: the tokens are taken by reference. -/
abbrev Parser := List Str → Raw (List Opt × List Str)

/-- `parse_long_option` (src/cmdline.cpp:512-546). -/
def parseLong (c : Cmdline) (args : List Str) : Raw (List Opt × List Str) := do
  let tok ← get args 0
  if tok.length ≥ 3 then
    if (← get tok 0) = '-' then
      if (← get tok 1) = '-' then
        match findChar tok '=' with
        | some p =>
          let n ← sub p 2
          let name ← substr tok 2 n
          let adjacent ← substrFrom tok (p + 1)
          if adjacent = [] then throw (.fail (errSyntax .emptyAdjacentParameter name name c.canonicalPrefix))
          return ([{ stringKey := name, value := [adjacent], originalTokens := [tok] }], ← popFront args)
        | none =>
          let name ← substrFrom tok 2
          return ([{ stringKey := name, originalTokens := [tok] }], ← popFront args)
  return ([], args)

/-- The loop of `parse_short_option` (src/cmdline.cpp:566-609). -/
def shortLoop (c : Cmdline) (tok name adjacent : Str) (result : List Opt) : Raw (List Opt) :=
  match of (c.findShort name) with
  | .error e => .error e
  | .ok d =>
    if c.takesNoValue d ∧ adjacent ≠ [] then
      match get adjacent 0 with
      | .error e => .error e
      | .ok a =>
        match h : popFront adjacent with
        | .error e => .error e
        | .ok adjacent' => shortLoop c tok ['-', a] adjacent' (result ++ [{ stringKey := name }])
    else
      .ok (result ++ [{ stringKey := name, originalTokens := [tok], value := if adjacent ≠ [] then [adjacent] else [] }])
termination_by adjacent.length
decreasing_by
  cases adjacent with
  | nil => simp [popFront] at h
  | cons => simp [popFront] at h; subst h; simp

/-- `parse_short_option` (src/cmdline.cpp:549-613). -/
def parseShort (c : Cmdline) (args : List Str) : Raw (List Opt × List Str) := do
  let tok ← get args 0
  if tok.length ≥ 2 then
    if (← get tok 0) = '-' then
      if (← get tok 1) ≠ '-' then
        let name ← substr tok 0 2
        let adjacent ← substrFrom tok 2
        let result ← shortLoop c tok name adjacent []
        return (result, ← popFront args)
  return ([], args)

/-- `parse_dos_option` (src/cmdline.cpp:615-634). -/
def parseDos (args : List Str) : Raw (List Opt × List Str) := do
  let tok ← get args 0
  if tok.length ≥ 2 then
    if (← get tok 0) = '/' then
      let letter ← substr tok 1 1
      let adjacent ← substrFrom tok 2
      return ([{ stringKey := '-' :: letter, value := if adjacent ≠ [] then [adjacent] else [], originalTokens := [tok] }],
        ← popFront args)
  return ([], args)

/-- `tok.substr(1, tok.find('=')-1)` (src/cmdline.cpp:646): with `npos` everything from 1 on. -/
def disguisedName (tok : Str) : Raw Str :=
  match findChar tok '=' with
  | some p => do let n ← sub p 1; substr tok 1 n
  | none => substrFrom tok 1

/-- The handlers `catch (error_with_option_name& e) { e.add_context(name, token, …); throw; }`. -/
def context {α : Type} (c : Cmdline) (name token : Str) : Raw α → Raw α
  | .error (.fail f) => .error (.fail (f.addContext name token c.canonicalPrefix))
  | r => r

/-- `parse_disguised_long_option` (src/cmdline.cpp:636-665). -/
def parseDisguised (c : Cmdline) (args : List Str) : Raw (List Opt × List Str) := do
  let tok ← get args 0
  if tok.length ≥ 2 then
    let c0 ← get tok 0
    let c1 ← get tok 1
    if (c0 = '-' ∧ c1 ≠ '-') ∨ (active c.style Style.allowSlashForShort = true ∧ c0 = '/') then
      let name ← disguisedName tok
      match ← context c tok tok (of (c.lookup name)) with
      | some _ =>
        let dashed := '-' :: tok
        let d1 ← get dashed 1
        let dashed := if d1 = '/' then dashed.set 1 '-' else dashed
        let rest ← popFront args
        return (← context c dashed dashed (parseLong c (dashed :: rest)))
      | none => return ([], args)
  return ([], args)

/-- The loop of `parse_terminator` (src/cmdline.cpp:674-681). -/
def terminatorFrom (args : List Str) (i : Nat) (result : List Opt) : Raw (List Opt) :=
  if i < args.length then
    match get args i with
    | .error e => .error e
    | .ok a => terminatorFrom args (i + 1) (result ++ [{ value := [a], originalTokens := [a], positionKey := intMax }])
  else .ok result
termination_by args.length - i

/-- `parse_terminator` (src/cmdline.cpp:667-685). -/
def parseTerminator (args : List Str) : Raw (List Opt × List Str) := do
  let tok ← get args 0
  if tok = ['-', '-'] then
    let result ← terminatorFrom args 1 []
    return (result, [])
  return ([], args)

/-- `handle_additional_parser` (src/cmdline.cpp:687-701). -/
def parseAdditional (f : Str → Str × Str) (args : List Str) : Raw (List Opt × List Str) := do
  let tok ← get args 0
  let r := f tok
  if r.1 ≠ [] then
    return ([{ stringKey := r.1, value := if r.2 ≠ [] then [r.2] else [] }], ← popFront args)
  return ([], args)

/-- The list of style parsers built by `run` (src/cmdline.cpp:224-248). The user's own style parser is called as it is. -/
def parsers (c : Cmdline) : List Parser :=
  (match c.styleParser with | some p => [fun args => of (p args)] | none => []) ++
  (match c.additional with | some f => [parseAdditional f] | none => []) ++
  (if active c.style Style.allowLong then [parseLong c] else []) ++
  (if active c.style Style.allowLongDisguise then [parseDisguised c] else []) ++
  (if active c.style Style.allowShort && active c.style Style.allowDashForShort then [parseShort c] else []) ++
  (if active c.style Style.allowShort && active c.style Style.allowSlashForShort then [parseDos] else []) ++
  [parseTerminator]

/-- The loop `for (i = 0; followed_option.empty() && i < style_parsers.size(); ++i)` (src/cmdline.cpp:472-477). -/
def lookahead (ps : List Parser) (i : Nat) (nextToken : List Str) (followed : List Opt) : Raw (List Opt) :=
  if followed = [] ∧ i < ps.length then
    match get ps i with
    | .error e => .error e
    | .ok p =>
      match p nextToken with
      | .error e => .error e
      | .ok (followed, nextToken) => lookahead ps (i + 1) nextToken followed
  else .ok followed
termination_by ps.length - i

/-- The loop moving up to `n` tokens into the option (src/cmdline.cpp:467-492). -/
def grab (c : Cmdline) (ps : List Parser) : Nat → List Str → Opt → Str → Raw (Opt × List Str)
  | 0, other, opt, _ => .ok (opt, other)
  | n + 1, other, opt, orig =>
    if other = [] then .ok (opt, other)
    else do
      let tok ← get other 0
      let followed ← context c opt.stringKey orig (lookahead ps 0 [tok] [])
      if followed ≠ [] then
        let od ← context c opt.stringKey tok (of (c.lookup tok))
        if od.isSome then
          throw (.fail ((errSyntax .missingParameter).addContext opt.stringKey tok c.canonicalPrefix))
      let rest ← popFront other
      grab c ps n rest { opt with value := opt.value ++ [tok], originalTokens := opt.originalTokens ++ [tok] }
        (if followed ≠ [] then tok else orig)

/-- `finish_option` (src/cmdline.cpp:400-510). -/
def finishOption (c : Cmdline) (ps : List Parser) (opt : Opt) (other : List Str) : Raw (Opt × List Str) := do
  if opt.stringKey = [] then return (opt, other)
  let orig ← (if opt.originalTokens.length ≠ 0 then get opt.originalTokens 0 else pure opt.stringKey)
  let xd ← context c opt.stringKey orig (of (c.lookup opt.stringKey))
  match xd with
  | none =>
    if c.allowUnregistered then return ({ opt with unregistered := true }, other)
    else throw (.fail (errUnknown.addContext opt.stringKey orig c.canonicalPrefix))
  | some d =>
    let opt := { opt with stringKey := d.key opt.stringKey }
    if opt.value.length + other.length ≥ d.semantic.minTokens then
      if opt.value ≠ [] ∧ d.semantic.maxTokens = 0 then
        throw (.fail ((errSyntax .extraParameter).addContext opt.stringKey orig c.canonicalPrefix))
      let n ← (if opt.value.length ≤ d.semantic.minTokens then sub d.semantic.minTokens opt.value.length else pure 0)
      grab c ps n other opt orig
    else throw (.fail ((errSyntax .missingParameter).addContext opt.stringKey orig c.canonicalPrefix))

/-- The loop `for (k = 0; k < next.size()-1; ++k) finish_option(next[k], e, style_parsers);` (src/cmdline.cpp:264-267). -/
def finishFirst (c : Cmdline) (ps : List Parser) (next : List Opt) (k : Nat) (e : List Str) : Raw (List Opt) :=
  match _hn : sub next.length 1 with
  | .error f => .error f
  | .ok n =>
    if k < n then
      match get next k with
      | .error f => .error f
      | .ok o =>
        match finishOption c ps o e with
        | .error f => .error f
        | .ok (o', e') => finishFirst c ps (next.set k o') (k + 1) e'
    else .ok next
termination_by next.length - k
decreasing_by
  rename_i hk
  rw [List.length_set]
  unfold sub at _hn
  split at _hn
  · cases _hn; omega
  · cases _hn

/-- The inner `for` over the style parsers (src/cmdline.cpp:255-280): whether something was consumed, the results, and what is
left. -/
def tryFrom (c : Cmdline) (ps : List Parser) (i : Nat) (args : List Str) (result : List Opt) :
    Raw (Bool × List Opt × List Str) :=
  if i < ps.length then
    match get ps i with
    | .error e => .error e
    | .ok p =>
      match p args with
      | .error e => .error e
      | .ok (next, args1) =>
        let finished : Raw (List Opt × List Str) :=
          if next ≠ [] then do
            let next ← finishFirst c ps next 0 []
            let last ← back next
            let (last', args2) ← finishOption c ps last args1
            let init ← popBack next
            pure (result ++ (init ++ [last']), args2)
          else pure (result, args1)
        match finished with
        | .error e => .error e
        | .ok (result', args2) =>
          if args2.length ≠ args.length then .ok (true, result', args2)
          else tryFrom c ps (i + 1) args2 result'
  else .ok (false, result, args)
termination_by ps.length - i

/-- The `while` loop of `run` (src/cmdline.cpp:252-289), at most `fuel` rounds. -/
def loop (c : Cmdline) (ps : List Parser) : Nat → List Str → List Opt → Raw (List Opt)
  | fuel, args, result =>
    if args = [] then .ok result
    else
      match fuel with
      | 0 => .error (.fail .fuel)
      | fuel + 1 => do
        let (ok, result, args) ← tryFrom c ps 0 args result
        if ok then loop c ps fuel args result
        else
          let a ← get args 0
          loop c ps fuel (← popFront args) (result ++ [{ value := [a], originalTokens := [a] }])

/-- `int can_take_more = max_tokens - static_cast<int>(opt.value.size())`: an `unsigned` difference converted to `int`. -/
def toInt (n : Nat) : Int := if n < 2147483648 then n else (n : Int) - 4294967296

/-- The inner loop of the second pass (src/cmdline.cpp:330-352): the option and the new `j`. -/
def absorbFrom (result : List Opt) (canTake : Int) (j : Nat) (opt : Opt) : Raw (Opt × Nat) :=
  if canTake ≠ 0 ∧ j < result.length then
    match get result j with
    | .error e => .error e
    | .ok opt2 =>
      if opt2.stringKey ≠ [] then .ok (opt, j)
      else if opt2.positionKey = intMax then .ok (opt, j)
      else if opt2.value.length ≠ 1 then .error (.fail (.ub .valueNotSingle))
      else
        match get opt2.value 0 with
        | .error e => .error e
        | .ok v =>
          if opt2.originalTokens.length ≠ 1 then .error (.fail (.ub .originalNotSingle))
          else
            match get opt2.originalTokens 0 with
            | .error e => .error e
            | .ok t =>
              absorbFrom result (canTake - 1) (j + 1)
                { opt with value := opt.value ++ [v], originalTokens := opt.originalTokens ++ [t] }
  else .ok (opt, j)
termination_by result.length - j

/-- What the second pass does with the option at one index (src/cmdline.cpp:296-355): the option for `result2`, and the index
of the next one. -/
def secondStep (c : Cmdline) (result : List Opt) (i : Nat) : Raw (Opt × Nat) := do
  let opt ← get result i
  if opt.stringKey = [] then return (opt, i + 1)
  match c.lookup opt.stringKey with
  | .error (.opt e) =>
    let t ← get opt.originalTokens 0
    throw (.fail (.opt (e.addContext opt.stringKey t c.canonicalPrefix)))
  | .error f => of (.error f)
  | .ok none => return (opt, i + 1)
  | .ok (some d) =>
    if d.semantic.minTokens < d.semantic.maxTokens ∧ opt.value.length < d.semantic.maxTokens then
      let n ← sub d.semantic.maxTokens opt.value.length
      let (opt, j) ← absorbFrom result (toInt n) (i + 1) opt
      let i ← sub j 1
      return (opt, i + 1)
    else return (opt, i + 1)

/-- The second pass (src/cmdline.cpp:294-356), at most `fuel` rounds. -/
def secondPass (c : Cmdline) (result : List Opt) : Nat → Nat → List Opt → Raw (List Opt)
  | fuel, i, result2 =>
    if i < result.length then
      match fuel with
      | 0 => .error (.fail .fuel)
      | fuel + 1 => do
        let (o, i) ← secondStep c result i
        secondPass c result fuel i (result2 ++ [o])
    else .ok result2

/-- `for (i = 0; i < result.size(); ++i) if (result[i].string_key.empty()) result[i].position_key = position_key++;`
(src/cmdline.cpp:361-364). -/
def positionsFrom (result : List Opt) (i : Nat) (key : Int) : Raw (List Opt) :=
  if i < result.length then
    match get result i with
    | .error e => .error e
    | .ok o =>
      if o.stringKey = [] then positionsFrom (result.set i { o with positionKey := key }) (i + 1) (key + 1)
      else positionsFrom result (i + 1) key
  else .ok result
termination_by result.length - i

/-- `name_for_position` (src/positional_options.cpp:42-51). -/
def nameForPosition (p : Positional) (position : Nat) : Raw Str :=
  if p.full position then .error (.fail (.ub .positionTooLarge))
  else if position < p.names.length then get p.names position
  else .ok p.trailing

/-- The loop naming the positional options (src/cmdline.cpp:366-380). -/
def namesFrom (p : Positional) (result : List Opt) (i position : Nat) : Raw (List Opt) :=
  if i < result.length then
    match get result i with
    | .error e => .error e
    | .ok o =>
      if o.positionKey ≠ -1 then
        if p.full position then .error (.fail .tooManyPositional)
        else
          match nameForPosition p position with
          | .error e => .error e
          | .ok n => namesFrom p (result.set i { o with stringKey := n }) (i + 1) (position + 1)
      else namesFrom p result (i + 1) position
  else .ok result
termination_by result.length - i

/-- The loop setting the case flag (src/cmdline.cpp:383-395). -/
def caseFrom (c : Cmdline) (result : List Opt) (i : Nat) : Raw (List Opt) :=
  if i < result.length then
    match get result i with
    | .error e => .error e
    | .ok o =>
      if o.stringKey.length > 2 then
        caseFrom c (result.set i { o with caseInsensitive := active c.style Style.longCaseInsensitive }) (i + 1)
      else if o.stringKey.length > 1 then
        match get o.stringKey 0 with
        | .error e => .error e
        | .ok ch =>
          if ch ≠ '-' then
            caseFrom c (result.set i { o with caseInsensitive := active c.style Style.longCaseInsensitive }) (i + 1)
          else caseFrom c (result.set i { o with caseInsensitive := active c.style Style.shortCaseInsensitive }) (i + 1)
      else caseFrom c (result.set i { o with caseInsensitive := active c.style Style.shortCaseInsensitive }) (i + 1)
  else .ok result
termination_by result.length - i

/-- `cmdline::run` (src/cmdline.cpp:207-398). -/
def run (c : Cmdline) (args : List Str) : Raw (List Opt) := do
  let result ← loop c (parsers c) (args.length + 1) args []
  let result ← secondPass c result result.length 0 []
  let result ← positionsFrom result 0 0
  let result ← (match c.positional with | some p => namesFrom p result 0 0 | none => pure result)
  caseFrom c result 0

end Raw
end PO
