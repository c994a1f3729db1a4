import Verif.Spec.Help
/-
The text of the help where assertions do nothing (C126).
-/
namespace PO.Spec

/-- The columns of a line that are used: one is left free. -/
def usedColumns (lineLength : Nat) : Nat := if 1 < lineLength then lineLength - 1 else lineLength

/-- A paragraph from column `col` where lines have `n` columns. -/
inductive LooseParagraph (col n : Nat) : Str → Str → Prop
  /-- there is room for at least one column: as usual -/
  | usual {s out} (h : col < n) (hp : Paragraph col (n - col) s out) : LooseParagraph col n s out
  /-- a tab that is not on the first line is ignored -/
  | late {a b ls} (h : col < n) (ha : '\t' ∉ a) (hb : '\t' ∉ b) (hn : n - col ≤ a.length) (hl : Lines (n - col) (n - col) (a ++ b) ls) :
      LooseParagraph col n (a ++ '\t' :: b) ((newLine col).intercalate ls)
  /-- the column is beyond the line: all in one line -/
  | beyond {s} (h : n < col) (ht : s.count '\t' ≤ 1) : LooseParagraph col n s (s.filter (· ≠ '\t'))
  /-- the column is the end of the line: only without any text -/
  | void {s} (h : n = col) (hs : s = [] ∨ s = ['\t']) : LooseParagraph col n s []

/-- Paragraphs, one below the other. -/
inductive LooseParagraphs (col n : Nat) : Str → Str → Prop
  | one {s out} (h : '\n' ∉ s) (hp : LooseParagraph col n s out) : LooseParagraphs col n s out
  | cons {s out s' out'} (h : '\n' ∉ s) (hp : LooseParagraph col n s out) (t : LooseParagraphs col n s' out') :
      LooseParagraphs col n (s ++ '\n' :: s') (out ++ newLine col ++ out')

/-- The entry of an option. -/
inductive LooseEntry (col lineLength : Nat) (d : OptionDesc) : Str → Prop
  | bare {left} (hl : Left d left) (h : d.description = []) : LooseEntry col lineLength d left
  | beside {left text} (hl : Left d left) (h : d.description ≠ []) (hc : left.length < col)
      (ht : LooseParagraphs col (usedColumns lineLength) d.description text) :
      LooseEntry col lineLength d (left ++ List.replicate (col - left.length) ' ' ++ text)
  | below {left text} (hl : Left d left) (h : d.description ≠ []) (hc : col ≤ left.length)
      (ht : LooseParagraphs col (usedColumns lineLength) d.description text) : LooseEntry col lineLength d (left ++ newLine col ++ text)

inductive LoosePiece (col : Nat) : Piece → Str → Prop
  | caption (c) : LoosePiece col (.caption c) (c ++ str% ":\n")
  | blank : LoosePiece col .blank (str% "\n")
  | entry {d ll out} (h : LooseEntry col ll d out) : LoosePiece col (.entry d ll) (out ++ str% "\n")

/-- The text of several pieces. -/
inductive LooseText (col : Nat) : List Piece → Str → Prop
  | nil : LooseText col [] []
  | cons {p ps out out'} (h : LoosePiece col p out) (t : LooseText col ps out') : LooseText col (p :: ps) (out ++ out')

mutual
/-- The column where descriptions begin: as `Column`, and if the minimal description length is not less than the line length, the available room
is computed modulo 2^32. -/
inductive LooseColumn : Tree → Nat → Prop
  | mk {caption ll md items lefts groups b room} (hl : Lefts items.declared lefts) (hg : LooseColumns items groups) (hb : Largest (23 :: lefts ++ groups) b)
      (hm : md < ll ∧ room = ll - md - 1 ∨ ll ≤ md ∧ room = 2 ^ 32 - 1 - (md - ll)) : LooseColumn (.mk caption ll md items) (min b room + 1)

inductive LooseColumns : Items → List Nat → Prop
  | nil : LooseColumns .nil []
  | opt {d rest ws} (h : LooseColumns rest ws) : LooseColumns (.opt d rest) ws
  | group {t rest w ws} (h : LooseColumn t w) (hr : LooseColumns rest ws) : LooseColumns (.group t rest) (w :: ws)
end

/-- Some paragraph (a part of the description without a new line before, in or after it) has a property. -/
def SomeParagraph (desc : Str) (p : Str → Prop) : Prop :=
  ∃ pre par post, desc = pre ++ par ++ post ∧ '\n' ∉ par ∧ (pre = [] ∨ pre.getLast? = some '\n') ∧ (post = [] ∨ post.head? = some '\n') ∧ p par

/-- What can be printed without assertions at column `col`: the option has a name, no paragraph of its description has two tabs, and if the column is the end
of the line, no paragraph has any text. -/
structure PrintableEntry (col lineLength : Nat) (d : OptionDesc) : Prop where
  named : d.shortName ≠ [] ∨ d.longNames ≠ []
  tabs : ¬ SomeParagraph d.description fun p => 1 < p.count '\t'
  room : usedColumns lineLength = col → ¬ SomeParagraph d.description fun p => p ≠ [] ∧ p ≠ ['\t']

/-- Sizes within `unsigned`, and descriptions of less than 2^31 characters. -/
structure ModestSizes (t : Tree) : Prop where
  lengths : ∀ p ∈ t.sizes, p.1 < 2 ^ 32 ∧ p.2 < 2 ^ 32
  descriptions : ∀ d ∈ t.declared, d.description.length < 2 ^ 31

end PO.Spec
