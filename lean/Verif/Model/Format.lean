import Verif.Model.Desc
/-
The help text: src/options_description.cpp:234-254, 418-698. Column numbers are `unsigned` in the
code and natural numbers here.
-/
namespace PO

/-- `option_description::format_name` (src/options_description.cpp:234-245). -/
def OptionDesc.formatName (d : OptionDesc) : Except Fail Str :=
  if d.shortName ≠ [] then
    match d.longNames with
    | [] => .ok d.shortName
    | n :: _ => .ok (d.shortName ++ str% " [ --" ++ n ++ str% " ]")
  else
    match d.longNames with
    | [] => .error (.ub .noLongName)
    | n :: _ => .ok (str% "--" ++ n)

/-- `option_description::format_parameter` (src/options_description.cpp:247-254). -/
def OptionDesc.formatParameter (d : OptionDesc) : Str :=
  if d.semantic.maxTokens ≠ 0 then d.semantic.name else []

def spaces (n : Nat) : Str := List.replicate n ' '

/-- `last_space - line_begin`: the length of the part up to and including the last space, 0 if
there is none. -/
def afterLastSpace (s : Str) : Nat := (s.reverse.dropWhile (fun c => c ≠ ' ')).length

/-- `line_end - line_begin` (src/options_description.cpp:508-534) for the rest `s` of the paragraph
and `len` available columns. -/
def lineEnd (s : Str) (len : Nat) : Nat :=
  let n := if s.length < len then s.length else len
  if s[n - 1]? ≠ some ' ' ∧ n < s.length ∧ s[n]? ≠ some ' ' then
    let ls := afterLastSpace (s.take n)
    if ls ≠ 0 ∧ n - ls < len / 2 then ls else n
  else n

/-- Removal of a single leading space (src/options_description.cpp:491-503). -/
def dropLead (s : Str) : Str :=
  match s with
  | ' ' :: c :: r => if c ≠ ' ' then c :: r else s
  | _ => s

/-- The lines after the first one: `indent` and `len` already adjusted by `par_indent`
(src/options_description.cpp:489-559). -/
def wrapRest : Nat → Str → Nat → Except Fail (List Str)
  | _, [], _ => .ok []
  | 0, _ :: _, _ => .error .fuel
  | fuel + 1, s, len =>
    if len = 0 then .error (.ub .formatRange)
    else
      let s' := dropLead s
      match wrapRest fuel (s'.drop (lineEnd s' len)) len with
      | .error f => .error f
      | .ok ls => .ok (s'.take (lineEnd s' len) :: ls)

/-- The tab of a paragraph (src/options_description.cpp:449-476): `par_indent` and the paragraph
without the tab. -/
def parIndent (par : Str) (len : Nat) : Except Fail (Nat × Str) :=
  match findChar par '\t' with
  | none => .ok (0, par)
  | some i =>
    if par.count '\t' > 1 then
      .error (.error (str% "Only one tab per paragraph is allowed in the options description"))
    else if i < len then .ok (i, par.take i ++ par.drop (i + 1))
    else .error (.ub .formatAssert)

/-- The lines of a paragraph without their indentation, and the extra indentation of the lines
after the first (`format_paragraph`, src/options_description.cpp:435-561). -/
def paragraphLines (par : Str) (indent lineLength : Nat) : Except Fail (Nat × List Str) :=
  if indent < lineLength then
    let len := lineLength - indent
    match parIndent par len with
    | .error f => .error f
    | .ok (pi, p) =>
      if p.length < len then .ok (pi, [p])
      else
        let n := lineEnd p len
        match wrapRest p.length (p.drop n) (len - pi) with
        | .error f => .error f
        | .ok ls => .ok (pi, p.take n :: ls)
  else .error (.ub .formatAssert)

/-- The text written for a list of lines: each line after the first on a new line after `pad`
spaces. -/
def joinLines (pad : Nat) : List Str → Str
  | [] => []
  | [l] => l
  | l :: ls => l ++ '\n' :: spaces pad ++ joinLines pad ls

/-- `format_paragraph` (src/options_description.cpp:435-561). -/
def formatParagraph (par : Str) (indent lineLength : Nat) : Except Fail Str :=
  match paragraphLines par indent lineLength with
  | .error f => .error f
  | .ok (pi, ls) => .ok (joinLines (indent + pi) ls)

/-- `boost::char_separator<char>("\n", "", keep_empty_tokens)` on a non-empty string. -/
def splitNl : Str → List Str
  | [] => [[]]
  | c :: cs =>
    if c = '\n' then [] :: splitNl cs
    else
      match splitNl cs with
      | [] => [[c]]
      | l :: ls => (c :: l) :: ls

/-- The loop of `format_description` (src/options_description.cpp:592-609). -/
def formatPars (indent lineLength : Nat) : List Str → Except Fail (List Str)
  | [] => .ok []
  | p :: ps =>
    match formatParagraph p indent lineLength with
    | .error f => .error f
    | .ok t =>
      match formatPars indent lineLength ps with
      | .error f => .error f
      | .ok ts => .ok (t :: ts)

/-- `format_description` (src/options_description.cpp:563-610). -/
def formatDescription (desc : Str) (firstCol lineLength : Nat) : Except Fail Str :=
  if lineLength > 1 then
    if lineLength - 1 > firstCol then
      match formatPars firstCol (lineLength - 1) (splitNl desc) with
      | .error f => .error f
      | .ok ts => .ok (joinLines firstCol ts)
    else .error (.ub .formatAssert)
  else .error (.ub .formatAssert)

/-- The left column of an option: `"  " << format_name() << ' ' << format_parameter()`. -/
def OptionDesc.leftColumn (d : OptionDesc) : Except Fail Str :=
  match d.formatName with
  | .error f => .error f
  | .ok n => .ok (str% "  " ++ n ++ str% " " ++ d.formatParameter)

/-- `format_one` (src/options_description.cpp:612-640). -/
def formatOne (d : OptionDesc) (firstCol lineLength : Nat) : Except Fail Str :=
  match d.leftColumn with
  | .error f => .error f
  | .ok ss =>
    if d.description = [] then .ok ss
    else
      let pad := if ss.length ≥ firstCol then '\n' :: spaces firstCol else spaces (firstCol - ss.length)
      match formatDescription d.description firstCol lineLength with
      | .error f => .error f
      | .ok t => .ok (ss ++ pad ++ t)

/-- Maximum of the left column widths (src/options_description.cpp:646-655). -/
def maxLeft : List OptionDesc → Nat → Except Fail Nat
  | [], w => .ok w
  | d :: ds, w =>
    match d.leftColumn with
    | .error f => .error f
    | .ok ss => maxLeft ds (max w ss.length)

mutual
/-- `get_option_column_width` (src/options_description.cpp:643-670). For objects built by the
constructor `start - 1` wraps around only if the line length is 0; other objects are reported. -/
def columnWidth : OptionsDesc → Except Fail Nat
  | ⟨_, lineLength, minDescLen, options, _, groups⟩ =>
    match maxLeft options 23 with
    | .error f => .error f
    | .ok w =>
      match groupsWidth groups w with
      | .error f => .error f
      | .ok w' =>
        if minDescLen + 1 ≤ lineLength then .ok (min w' (lineLength - minDescLen - 1) + 1)
        else if lineLength = 0 then .ok (min w' (uintMax - minDescLen) + 1)
        else .error (.ub .formatRange)

def groupsWidth : List OptionsDesc → Nat → Except Fail Nat
  | [], w => .ok w
  | g :: gs, w =>
    match columnWidth g with
    | .error f => .error f
    | .ok w' => groupsWidth gs (max w w')
end

/-- The options that do not belong to a group (src/options_description.cpp:682-692). -/
def ownOptions : List OptionDesc → List Bool → List OptionDesc
  | d :: ds, b :: bs => if b then ownOptions ds bs else d :: ownOptions ds bs
  | _, _ => []

def formatOptions (width lineLength : Nat) : List OptionDesc → Except Fail Str
  | [] => .ok []
  | d :: ds =>
    match formatOne d width lineLength with
    | .error f => .error f
    | .ok t =>
      match formatOptions width lineLength ds with
      | .error f => .error f
      | .ok ts => .ok (t ++ '\n' :: ts)

mutual
/-- `print` once the width is known (src/options_description.cpp:672-698). A nested call gets a
width that is never 0, see `columnWidth`. -/
def printWidth (width : Nat) : OptionsDesc → Except Fail Str
  | ⟨caption, lineLength, _, options, belong, groups⟩ =>
    match formatOptions width lineLength (ownOptions options belong) with
    | .error f => .error f
    | .ok body =>
      match printGroups width groups with
      | .error f => .error f
      | .ok gs => .ok ((if caption = [] then [] else caption ++ str% ":\n") ++ body ++ gs)

def printGroups (width : Nat) : List OptionsDesc → Except Fail Str
  | [] => .ok []
  | g :: gs =>
    match printWidth width g with
    | .error f => .error f
    | .ok t =>
      match printGroups width gs with
      | .error f => .error f
      | .ok ts => .ok ('\n' :: t ++ ts)
end

/-- `options_description::print(os, width)` (src/options_description.cpp:672-698). -/
def OptionsDesc.print (o : OptionsDesc) (width : Nat := 0) : Except Fail Str :=
  if width = 0 then
    match columnWidth o with
    | .error f => .error f
    | .ok w => printWidth w o
  else printWidth width o

end PO
