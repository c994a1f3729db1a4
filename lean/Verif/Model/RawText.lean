import Verif.Model.Raw
import Verif.Model.Parsers
import Verif.Model.Format
import Verif.Model.Split
/-
The functions about text once more, statement by statement as in Model/Raw.lean: messages, configuration files, the
environment, the help, and split_winmain.
-/
namespace PO.Raw

/-- `*i` for an iterator at offset `i` of the range `v`. -/
def deref {α : Type} (v : List α) (i : Nat) : Raw α :=
  match v[i]? with
  | some x => .ok x
  | none => .error (.oob .iter)

/-- `--i` for an iterator at offset `i`. -/
def prev (i : Nat) : Raw Nat := if i = 0 then .error (.oob .iter) else .ok (i - 1)

/-- `std::string::find_first_not_of`. -/
def findFirstNotOf (s : Str) (p : Char → Bool) : Option Nat := s.findIdx? (fun c => !p c)

/-- `std::string::find_last_not_of`. -/
def findLastNotOf (s : Str) (p : Char → Bool) : Option Nat :=
  (s.reverse.findIdx? (fun c => !p c)).map (fun i => s.length - 1 - i)

/-! ### Messages -/

/-- `strip_prefixes` (errors.hpp:26-35). -/
def stripPrefixes (text : Str) : Raw Str :=
  match findFirstNotOf text (fun c => c == '-' || c == '/') with
  | none => .ok text
  | some i => substrFrom text i

/-- `m_substitutions.find(k)->second`. -/
def substOf (e : OptErr) (k : Str) : Raw Str :=
  match SMap.get? e.subst k with
  | some v => .ok v
  | none => .error (.oob .iter)

/-- `get_canonical_option_name` (src/value_semantic.cpp:304-323). `none` is the `std::logic_error` of
`get_canonical_option_prefix`. -/
def canonicalName (e : OptErr) : Raw (Option Str) := do
  let option ← substOf e (str% "option")
  let original ← substOf e (str% "original_token")
  if option.length = 0 then return some original
  let originalToken ← stripPrefixes original
  let optionName ← stripPrefixes option
  if e.style = Style.allowLong ∨ e.style = Style.allowLongDisguise then
    return e.canonicalPrefix.map (· ++ optionName)
  if e.style ≠ 0 ∧ originalToken.length ≠ 0 then
    let ch ← get originalToken 0
    return e.canonicalPrefix.map (· ++ [ch])
  return some optionName

/-- `m_message.replace(pos, n, to)`. -/
def replace (s : Str) (pos n : Nat) (to : Str) : Raw Str :=
  if pos ≤ s.length then .ok (s.take pos ++ to ++ s.drop (pos + n)) else .error (.oob .pos)

/-- `replace_token` (src/value_semantic.cpp:271-281), at most `fuel` rounds. -/
def replaceToken : Nat → Str → Str → Str → Raw (Option Str)
  | fuel, msg, src, dst =>
    match findSub msg src with
    | none => .ok (some msg)
    | some pos =>
      match fuel with
      | 0 => .ok none
      | fuel + 1 =>
        match replace msg pos src.length dst with
        | .error e => .error e
        | .ok msg' => replaceToken fuel msg' src dst

/-- `for (i = 0; i < alternatives_vec.size() - 1; ++i) error_template += …` (src/value_semantic.cpp:379-380). -/
def alternativesFrom (v : List Str) (i : Nat) (t : Str) : Raw Str :=
  match _h : sub v.length 1 with
  | .error e => .error e
  | .ok n =>
    if i < n then
      match get v i with
      | .error e => .error e
      | .ok a => alternativesFrom v (i + 1) (t ++ str% "'%prefix%" ++ a ++ str% "', ")
    else .ok t
termination_by v.length - i
decreasing_by
  unfold sub at _h
  split at _h
  · cases _h; omega
  · cases _h

/-- The template built by `ambiguous_option::substitute_placeholders` (src/value_semantic.cpp:370-388). -/
def ambiguousTemplate (alts : List Str) (template : Str) : Raw Str := do
  let v := SSet.insertAll [] alts
  let t := template ++ str% " and matches "
  let t ← (if v.length > 1 then do
      let t ← alternativesFrom v 0 t
      pure (t ++ str% "and ")
    else pure t)
  let t := if alts.length > 1 ∧ v.length = 1 then t ++ str% "different versions of " else t
  let last ← back v
  return t ++ str% "'%prefix%" ++ last ++ str% "'"

/-! ### Configuration files -/

/-- `trim_ws` (src/config_file.cpp:69-79). -/
def trimWs (s : Str) : Raw Str :=
  match findFirstNotOf s isWs with
  | none => .ok []
  | some n =>
    match findLastNotOf s isWs with
    | none => .error (.oob .wrap)
    | some n2 => do
      let d ← sub n2 n
      substr s n (d + 1)

/-- `add_option` (src/config_file.cpp:38-66). `i` is the offset of the iterator. -/
def addOption (prefixes : SSet) (name : Str) : Raw SSet := do
  if name = [] then throw (.fail (.ub .emptyOptionName))
  if (← back name) = '*' then
    let n ← sub name.length 1
    let s := name.take n
    let i := prefixes.lowerBound s
    let bad ← (if i ≠ prefixes.length then do
        let x ← deref prefixes i
        pure (findSub x s == some 0)
      else pure false)
    let (bad, i) ← (if i ≠ 0 then do
        let i ← prev i
        let x ← deref prefixes i
        pure (bad || findSub s x == some 0, i)
      else pure (bad, i))
    if bad then
      let x ← deref prefixes i
      throw (.fail (.error (overlapMsg name x)))
    return prefixes.insert s
  return prefixes

/-- `allowed_option` (src/config_file.cpp:132-145). -/
def allowed (it : ConfigIter) (s : Str) : Raw Bool := do
  if it.allowedOptions.has s then return true
  let i := it.allowedPrefixes.lowerBound s
  if i ≠ 0 then
    let i ← prev i
    let x ← deref it.allowedPrefixes i
    return findSub s x == some 0
  return false

/-- `s.find('#')`, `s.substr(0, n)` and `trim_ws` (src/config_file.cpp:91-94). -/
def stripLine (s : Str) : Raw Str := do
  let s ← (match findChar s '#' with
    | some n => substr s 0 n
    | none => pure s)
  trimWs s

/-- The rest of the body of the loop of `get` (src/config_file.cpp:96-125). -/
def line (it : ConfigIter) (pre s : Str) : Raw LineResult := do
  if s = [] then return .skip
  let first ← deref s 0
  let last ← back s
  if first = '[' ∧ last = ']' then
    let n ← sub s.length 2
    let p ← substr s 1 n
    if (← back p) ≠ '.' then return .section_ (p ++ ['.'])
    return .section_ p
  match findChar s '=' with
  | some n =>
    let left ← substr s 0 n
    let left ← trimWs left
    let name := pre ++ left
    let right ← substrFrom s (n + 1)
    let value ← trimWs right
    let registered ← allowed it name
    if !registered && !it.allowUnregistered then throw (.fail (errUnknown name))
    return .option { stringKey := name, value := [value], unregistered := !registered, originalTokens := [name, value] }
  | none => throw (.fail (errConfigSyntax s .unrecognizedLine))

/-- The constructor's loop (src/config_file.cpp:24-36). -/
def addOptions : SSet → List Str → Raw SSet
  | ps, [] => .ok ps
  | ps, n :: ns =>
    match addOption ps n with
    | .error e => .error e
    | .ok ps' => addOptions ps' ns

/-- Repeated `get` until end of file (src/config_file.cpp:83-129). -/
def lines (it : ConfigIter) : Str → List Str → List Opt → Raw (List Opt)
  | _, [], result => .ok result
  | pre, l :: ls, result => do
    let s ← stripLine l
    match ← line it pre s with
    | .skip => lines it pre ls result
    | .section_ p => lines it p ls result
    | .option o => lines it pre ls (result ++ [o])

/-- The loop collecting the names (src/parsers.cpp:111-120). -/
def namesFromDesc (options : List OptionDesc) (i : Nat) (allowed : SSet) : Raw SSet :=
  if i < options.length then
    match get options i with
    | .error e => .error e
    | .ok d =>
      if d.longName = [] then .error (.fail (.error abbreviatedMsg))
      else namesFromDesc options (i + 1) (allowed.insert d.longName)
  else .ok allowed
termination_by options.length - i

/-- `parse_config_file(istream&, desc, allow_unregistered)` (src/parsers.cpp:102-130). -/
def parseConfigFile (text : Str) (desc : List OptionDesc) (allowUnregistered : Bool) : Raw (List Opt) := do
  let allowed ← namesFromDesc desc 0 []
  let prefixes ← addOptions [] allowed
  lines { allowedOptions := allowed, allowedPrefixes := prefixes, allowUnregistered } [] (getlines '\n' text) []

/-! ### Environment -/

/-- `environment_iterator::get` (environment_iterator.hpp:33-46) for one entry. -/
def splitEnv (s : Str) : Raw (Str × Str) :=
  match findChar s '=' with
  | none => .error (.fail (.ub .envNoEquals))
  | some n => do
    let a ← substr s 0 n
    let b ← substrFrom s (n + 1)
    return (a, b)

/-- `prefix_name_mapper::operator()` (src/parsers.cpp:227-239): the loop is that of `tolower_`, from `prefix.size()` on. -/
def prefixMapper (pre s : Str) : Raw Str :=
  if findSub s pre = some 0 then lowerFrom s pre.length [] else .ok []

/-! ### Help -/

/-- `find(reverse_iterator(line_end), reverse_iterator(line_begin), ' ').base()` (src/options_description.cpp:518-522). -/
def lastSpace (par : Str) (lineBegin : Nat) : Nat → Raw Nat
  | 0 => .ok 0
  | e + 1 =>
    if e + 1 = lineBegin then .ok lineBegin
    else
      match deref par e with
      | .error x => .error x
      | .ok ch => if ch = ' ' then .ok (e + 1) else lastSpace par lineBegin e

/-- Removal of a single leading space (src/options_description.cpp:491-503). -/
def skipLead (par : Str) (lineBegin : Nat) : Raw Nat := do
  if (← deref par lineBegin) = ' ' then
    if lineBegin + 1 < par.length then
      if (← deref par (lineBegin + 1)) ≠ ' ' then return lineBegin + 1
  return lineBegin

/-- `line_end` (src/options_description.cpp:508-534). -/
def lineEnd (par : Str) (lineBegin lineLength : Nat) : Raw Nat := do
  let remaining ← sub par.length lineBegin
  let lineEnd := lineBegin + (if remaining < lineLength then remaining else lineLength)
  let k ← prev lineEnd
  if (← deref par k) ≠ ' ' then
    if lineEnd < par.length then
      if (← deref par lineEnd) ≠ ' ' then
        let ls ← lastSpace par lineBegin lineEnd
        if ls ≠ lineBegin then
          let d ← sub lineEnd ls
          if d < lineLength / 2 then return ls
  return lineEnd

/-- The loop over the lines (src/options_description.cpp:489-559), at most `fuel` rounds. -/
def paragraphLoop (par : Str) (parIndent : Nat) : Nat → Nat → Bool → Nat → Nat → Str → Raw Str
  | fuel, lineBegin, firstLine, indent, lineLength, os =>
    if lineBegin < par.length then
      match fuel with
      | 0 => .error (.fail .fuel)
      | fuel + 1 => do
        let lineBegin ← (if !firstLine then skipLead par lineBegin else pure lineBegin)
        let lineEnd ← lineEnd par lineBegin lineLength
        let os := os ++ (par.drop lineBegin).take (lineEnd - lineBegin)
        let indent := if firstLine then indent + parIndent else indent
        let lineLength ← (if firstLine then sub lineLength parIndent else pure lineLength)
        let os := if lineEnd ≠ par.length then os ++ '\n' :: spaces indent else os
        paragraphLoop par parIndent fuel lineEnd false indent lineLength os
    else .ok os

/-- `format_paragraph` (src/options_description.cpp:435-561). -/
def formatParagraph (par : Str) (indent lineLength : Nat) : Raw Str := do
  if ¬ indent < lineLength then throw (.fail (.ub .formatAssert))
  let lineLength ← sub lineLength indent
  let (parIndent, par) ← (match findChar par '\t' with
    | none => pure (0, par)
    | some i =>
      if par.count '\t' > 1 then
        throw (.fail (.error (str% "Only one tab per paragraph is allowed in the options description")))
      else do
        let par ← (if i ≤ par.length then pure (par.take i ++ par.drop (i + 1)) else throw (.oob .pos))
        if ¬ i < lineLength then throw (.fail (.ub .formatAssert))
        pure (i, par))
  if par.length < lineLength then return par
  paragraphLoop par parIndent (par.length + 1) 0 true indent lineLength []

/-- The loop of `format_description` over the paragraphs (src/options_description.cpp:592-609). -/
def formatPars (indent lineLength : Nat) : List Str → Str → Raw Str
  | [], os => .ok os
  | p :: ps, os =>
    match formatParagraph p indent lineLength with
    | .error e => .error e
    | .ok t => formatPars indent lineLength ps (if ps = [] then os ++ t else os ++ t ++ '\n' :: spaces indent)

/-- `format_description` (src/options_description.cpp:563-610). -/
def formatDescription (desc : Str) (firstCol lineLength : Nat) : Raw Str := do
  if ¬ lineLength > 1 then throw (.fail (.ub .formatAssert))
  let lineLength ← sub lineLength 1
  if ¬ lineLength > firstCol then throw (.fail (.ub .formatAssert))
  formatPars firstCol lineLength (splitNl desc) []

/-- `format_one` (src/options_description.cpp:612-640). -/
def formatOne (d : OptionDesc) (firstCol lineLength : Nat) : Raw Str := do
  let name ← formatName d
  let ss := str% "  " ++ name ++ str% " " ++ d.formatParameter
  if d.description = [] then return ss
  let pad ← (if ss.length ≥ firstCol then pure ('\n' :: spaces firstCol) else do
    let n ← sub firstCol ss.length
    pure (spaces n))
  let t ← formatDescription d.description firstCol lineLength
  return ss ++ pad ++ t

/-- The loop of `print` over the options (src/options_description.cpp:682-692). -/
def printFrom (options : List OptionDesc) (belong : List Bool) (width lineLength i : Nat) (os : Str) : Raw Str :=
  if i < options.length then
    match get belong i with
    | .error e => .error e
    | .ok b =>
      if b then printFrom options belong width lineLength (i + 1) os
      else
        match get options i with
        | .error e => .error e
        | .ok d =>
          match formatOne d width lineLength with
          | .error e => .error e
          | .ok t => printFrom options belong width lineLength (i + 1) (os ++ t ++ ['\n'])
  else .ok os
termination_by options.length - i

mutual
/-- `print` once the width is known (src/options_description.cpp:672-698). -/
def printWidth (width : Nat) : OptionsDesc → Str → Raw Str
  | ⟨caption, lineLength, _, options, belong, groups⟩, os =>
    match printFrom options belong width lineLength 0 (if caption = [] then os else os ++ caption ++ str% ":\n") with
    | .error e => .error e
    | .ok os => printGroups width groups os

def printGroups (width : Nat) : List OptionsDesc → Str → Raw Str
  | [], os => .ok os
  | g :: gs, os =>
    match printWidth width g (os ++ ['\n']) with
    | .error e => .error e
    | .ok os => printGroups width gs os
end

/-- `options_description::print(os, width)` (src/options_description.cpp:672-698); the column width is that of the other
model, whose arithmetic is `unsigned` arithmetic without accesses. -/
def print (o : OptionsDesc) (width : Nat) : Raw Str := do
  let width ← (if width = 0 then of (columnWidth o) else pure width)
  printWidth width o []

/-! ### split_winmain -/

/-- `for(; i != e; ++i) if (!isspace(*i)) break;` (src/winmain.cpp:29-31, and the loop at 69), at most `fuel` rounds. -/
def skipSpaces (input : Str) : Nat → Nat → Raw Nat
  | fuel, i =>
    if i ≠ input.length then
      match fuel with
      | 0 => .error (.fail .fuel)
      | fuel + 1 =>
        match deref input i with
        | .error e => .error e
        | .ok ch => if isSpace ch then skipSpaces input fuel (i + 1) else .ok i
    else .ok i

/-- The main loop (src/winmain.cpp:40-76), at most `fuel` rounds. -/
def winFrom (input : Str) : Nat → Nat → WinState → List Str → Raw (WinState × List Str)
  | fuel, i, st, result =>
    if i ≠ input.length then
      match fuel with
      | 0 => .error (.fail .fuel)
      | fuel + 1 => do
        let ch ← deref input i
        if ch = '"' then
          if st.backslashes % 2 = 0 then
            let current := st.current ++ List.replicate (st.backslashes / 2) '\\'
            winFrom input fuel (i + 1) { current, emptyQuote := st.insideQuoted && current.isEmpty,
                                         insideQuoted := !st.insideQuoted, backslashes := 0 } result
          else
            let current := st.current ++ List.replicate (st.backslashes / 2) '\\'
            winFrom input fuel (i + 1) { st with current := current ++ ['"'], backslashes := 0 } result
        else if ch = '\\' then winFrom input fuel (i + 1) { st with backslashes := st.backslashes + 1 } result
        else
          let current := if st.backslashes ≠ 0 then st.current ++ List.replicate st.backslashes '\\' else st.current
          if isSpace ch && !st.insideQuoted then
            let j ← skipSpaces input (input.length + 1) i
            let j ← prev j
            winFrom input fuel (j + 1) { st with current := [], emptyQuote := false, backslashes := 0 } (result ++ [current])
          else winFrom input fuel (i + 1) { st with current := current ++ [ch], backslashes := 0 } result
    else .ok (st, result)

/-- `split_winmain` (src/winmain.cpp:23-88). -/
def splitWinmain (input : Str) : Raw (List Str) := do
  let i ← skipSpaces input (input.length + 1) 0
  if i ≠ input.length then
    let (st, result) ← winFrom input (input.length + 1) i {} []
    let current := if st.backslashes ≠ 0 then st.current ++ List.replicate st.backslashes '\\' else st.current
    return if current ≠ [] ∨ st.insideQuoted ∨ st.emptyQuote then result ++ [current] else result
  return []

end PO.Raw
