import Verif.Spec.Tree
/-
The help text again, as it is compiled with `NDEBUG`: assertions do nothing, and the code after them runs. `unsigned` arithmetic is modulo 2^32;
strings are shorter than 2^31 characters and columns are less than 2^31 (so sums do not wrap around). `Fail.ub` is now only what is undefined without assertions.
-/
namespace PO.Release

/-- `a - b` in `unsigned`. -/
def usub (a b : Nat) : Nat := (a + (2 ^ 32 - b)) % 2 ^ 32

/-- The tab of a paragraph (src/options_description.cpp:449-476): without the assertion at 469, the tab is ignored if it is not on the first line. -/
def parIndent (par : Str) (len : Nat) : Except Fail (Nat × Str) :=
  match findChar par '\t' with
  | none => .ok (0, par)
  | some i =>
    if par.count '\t' > 1 then
      .error (.error (str% "Only one tab per paragraph is allowed in the options description"))
    else .ok (if i ≥ len then 0 else i, par.take i ++ par.drop (i + 1))

/-- `format_paragraph` (src/options_description.cpp:435-561) without the assertion at 443. If `line_length` is 0 after line 444 and the
paragraph is not empty, `*(line_end - 1)` (514) is in front of the string. -/
def paragraphLines (par : Str) (indent lineLength : Nat) : Except Fail (Nat × List Str) :=
  let len := usub lineLength indent
  match parIndent par len with
  | .error f => .error f
  | .ok (pi, p) =>
    if p.length < len then .ok (pi, [p])
    else if p = [] then .ok (pi, [[]])
    else if len = 0 then .error (.ub .formatRange)
    else
      let n := lineEnd p len
      match wrapRest p.length (p.drop n) (len - pi) with
      | .error f => .error f
      | .ok ls => .ok (pi, p.take n :: ls)

def formatParagraph (par : Str) (indent lineLength : Nat) : Except Fail Str :=
  match paragraphLines par indent lineLength with
  | .error f => .error f
  | .ok (pi, ls) => .ok (joinLines (indent + pi) ls)

/-- The loop of `format_description` (src/options_description.cpp:592-609). -/
def formatPars (indent lineLength : Nat) : List Str → Except Fail (List Str)
  | [] => .ok []
  | p :: ps =>
    match formatParagraph p indent lineLength with
    | .error f => .error f
    | .ok t =>
      match formatPars indent lineLength ps with
      | .error f => .error f
      | .ok ts => .ok (t :: ts)

/-- `format_description` (src/options_description.cpp:563-610) without the assertions at 570 and 578. -/
def formatDescription (desc : Str) (firstCol lineLength : Nat) : Except Fail Str :=
  let lineLength := if lineLength > 1 then lineLength - 1 else lineLength
  match formatPars firstCol lineLength (splitNl desc) with
  | .error f => .error f
  | .ok ts => .ok (joinLines firstCol ts)

/-- `format_one` (src/options_description.cpp:612-640). -/
def formatOne (d : OptionDesc) (firstCol lineLength : Nat) : Except Fail Str :=
  match d.leftColumn with
  | .error f => .error f
  | .ok ss =>
    if d.description = [] then .ok ss
    else
      let pad := if ss.length ≥ firstCol then '\n' :: spaces firstCol else spaces (firstCol - ss.length)
      match formatDescription d.description firstCol lineLength with
      | .error f => .error f
      | .ok t => .ok (ss ++ pad ++ t)

mutual
/-- `get_option_column_width` (src/options_description.cpp:643-670). -/
def columnWidth : OptionsDesc → Except Fail Nat
  | ⟨_, lineLength, minDescLen, options, _, groups⟩ =>
    match maxLeft options 23 with
    | .error f => .error f
    | .ok w =>
      match groupsWidth groups w with
      | .error f => .error f
      | .ok w' => .ok (min w' (usub (usub lineLength minDescLen) 1) + 1)

def groupsWidth : List OptionsDesc → Nat → Except Fail Nat
  | [], w => .ok w
  | g :: gs, w =>
    match columnWidth g with
    | .error f => .error f
    | .ok w' => groupsWidth gs (max w w')
end

/-- The first loop of `print` (src/options_description.cpp:682-692). -/
def formatOptions (width lineLength : Nat) : List OptionDesc → Except Fail Str
  | [] => .ok []
  | d :: ds =>
    match formatOne d width lineLength with
    | .error f => .error f
    | .ok t =>
      match formatOptions width lineLength ds with
      | .error f => .error f
      | .ok ts => .ok (t ++ '\n' :: ts)

mutual
/-- `print` once the width is known (src/options_description.cpp:672-698). -/
def printWidth (width : Nat) : OptionsDesc → Except Fail Str
  | ⟨caption, lineLength, _, options, belong, groups⟩ =>
    match formatOptions width lineLength (ownOptions options belong) with
    | .error f => .error f
    | .ok body =>
      match printGroups width groups with
      | .error f => .error f
      | .ok gs => .ok ((if caption = [] then [] else caption ++ str% ":\n") ++ body ++ gs)

def printGroups (width : Nat) : List OptionsDesc → Except Fail Str
  | [] => .ok []
  | g :: gs =>
    match printWidth width g with
    | .error f => .error f
    | .ok t =>
      match printGroups width gs with
      | .error f => .error f
      | .ok ts => .ok ('\n' :: t ++ ts)
end

/-- `options_description::print(os, width)` (src/options_description.cpp:672-698). -/
def print (o : OptionsDesc) (width : Nat := 0) : Except Fail Str :=
  if width = 0 then
    match columnWidth o with
    | .error f => .error f
    | .ok w => printWidth w o
  else printWidth width o

mutual
/-- Building a description (`Tree.build`) with the constructors (src/options_description.cpp:300-318) without their assertions. -/
def build : Tree → OptionsDesc
  | .mk caption ll md items => addTo items { caption, lineLength := ll, minDescLen := md, options := [], belong := [], groups := [] }

def addTo : Items → OptionsDesc → OptionsDesc
  | .nil, o => o
  | .opt d rest, o => addTo rest (o.addOption d)
  | .group t rest, o => addTo rest (o.addGroup (build t))
end

end PO.Release
