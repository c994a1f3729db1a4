import Verif.Spec.Help
/-
Tabs in descriptions, as documented (doc/overview.xml:237-286), for C127.
-/
namespace PO.Spec

/-- The paragraph has a tab (one), at the position after `a`, and without it, it is more than one line, `l` being the first. -/
structure TabIn (n : Nat) (par a b l r : Str) : Prop where
  par_eq : par = a ++ '\t' :: b
  before : '\t' ∉ a
  behind : '\t' ∉ b
  line : Line n l r
  text : l ++ r = a ++ b

/-- A paragraph from column `col` in `n` columns, as documented. -/
inductive DocumentedParagraph (col n : Nat) : Str → Str → Prop
  | plain {s ls} (h : '\t' ∉ s) (hl : Lines n n s ls) : DocumentedParagraph col n s ((newLine col).intercalate ls)
  /-- "an additional indent for wrapped text" -/
  | indent {par a b l r ls} (h : TabIn n par a b l r) (h1 : a.length ≤ l.length) (h2 : a.length + 1 < n) (hl : Lines (n - a.length) n (a ++ b) ls) :
      DocumentedParagraph col n par ((newLine (col + a.length)).intercalate ls)
  /-- "the tabulator is ignored if it is not on the first line of the paragraph or is on the last possible position of the first line" -/
  | ignored {par a b l r ls} (h : TabIn n par a b l r) (h1 : l.length < a.length ∨ n ≤ a.length + 1) (hl : Lines n n (a ++ b) ls) :
      DocumentedParagraph col n par ((newLine col).intercalate ls)

/-- The tab is within `n` columns from the beginning, but in a word that is moved to the second line; or it is at the last position of the first line. And there
is a second line. -/
def Misplaced (n : Nat) (par : Str) : Prop :=
  ∃ a b l r, TabIn n par a b l r ∧ r ≠ [] ∧ a ≠ [] ∧ (l.length < a.length ∧ a.length < n ∨ a.length + 1 = n)

end PO.Spec
