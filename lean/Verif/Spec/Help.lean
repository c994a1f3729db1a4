import Verif.Spec.Tree
/-
The text of the help, character by character.
-/
namespace PO.Spec

/-- How the first line `l` is cut off a paragraph with `n` columns; `r` is the rest. If the paragraph is too long, the line is full; if
then it would end in the middle of a word, it ends before that word, unless this takes half of the line. -/
inductive Line (n : Nat) : Str → Str → Prop
  | all {l} (h : l.length ≤ n) : Line n l []
  | full {l r} (h : l.length = n) (hr : r ≠ []) (hb : l.getLast? = some ' ' ∨ r.head? = some ' ') : Line n l r
  | back {l w r} (h : (l ++ w).length = n) (hr : r ≠ []) (hb : r.head? ≠ some ' ') (hl : l.getLast? = some ' ') (hw : w ≠ []) (hs : ' ' ∉ w)
      (hh : w.length < n / 2) : Line n l (w ++ r)
  | chop {l r} (h : l.length = n) (hr : r ≠ []) (hb : r.head? ≠ some ' ') (hl : l.getLast? ≠ some ' ')
      (hh : ∀ pre w, l = pre ++ ' ' :: w → n / 2 ≤ w.length) : Line n l r

/-- A single blank at the beginning of a line is left out. -/
inductive Trims : Str → Str → Prop
  | blank {c t} (h : c ≠ ' ') : Trims (' ' :: c :: t) (c :: t)
  | keep {s} (h : ∀ c t, s = ' ' :: c :: t → c = ' ') : Trims s s

/-- The lines of a paragraph; the first has `n` columns, and the others `m`. -/
inductive Lines (m : Nat) : Nat → Str → List Str → Prop
  | last {n s} (h : Line n s []) : Lines m n s [s]
  | next {n l r r' ls} (h : Line n l r) (hr : r ≠ []) (ht : Trims r r') (t : Lines m m r' ls) : Lines m n (l ++ r) (l :: ls)

/-- A new line, and blanks up to the column. -/
def newLine (col : Nat) : Str := '\n' :: List.replicate col ' '

/-- A paragraph in `n` columns from column `col`. A tab is not written, but sets the column for the lines after the first. -/
inductive Paragraph (col n : Nat) : Str → Str → Prop
  | plain {s ls} (h : '\t' ∉ s) (hl : Lines n n s ls) : Paragraph col n s ((newLine col).intercalate ls)
  | tab {a b ls} (ha : '\t' ∉ a) (hb : '\t' ∉ b) (hn : a.length < n) (hl : Lines (n - a.length) n (a ++ b) ls) :
      Paragraph col n (a ++ '\t' :: b) ((newLine (col + a.length)).intercalate ls)

/-- Paragraphs, one below the other. -/
inductive Paragraphs (col n : Nat) : Str → Str → Prop
  | one {s out} (h : '\n' ∉ s) (hp : Paragraph col n s out) : Paragraphs col n s out
  | cons {s out s' out'} (h : '\n' ∉ s) (hp : Paragraph col n s out) (t : Paragraphs col n s' out') :
      Paragraphs col n (s ++ '\n' :: s') (out ++ newLine col ++ out')

/-- The name of an option. -/
inductive Named (d : OptionDesc) : Str → Prop
  | short (h : d.shortName ≠ []) (hl : d.longNames = []) : Named d d.shortName
  | both {n ns} (h : d.shortName ≠ []) (hl : d.longNames = n :: ns) : Named d (d.shortName ++ str% " [ --" ++ n ++ str% " ]")
  | long {n ns} (h : d.shortName = []) (hl : d.longNames = n :: ns) : Named d (str% "--" ++ n)

/-- The left column: the name, and the value if there can be one. -/
inductive Left (d : OptionDesc) : Str → Prop
  | switch {n} (hn : Named d n) (h : d.semantic.maxTokens = 0) : Left d (str% "  " ++ n ++ str% " ")
  | value {n} (hn : Named d n) (h : d.semantic.maxTokens ≠ 0) : Left d (str% "  " ++ n ++ str% " " ++ d.semantic.name)

/-- The entry of an option: the description begins at column `col`, beside the left column or, if that is too long, on a new line. The last
column of the line remains free. -/
inductive Entry (col lineLength : Nat) (d : OptionDesc) : Str → Prop
  | bare {left} (hl : Left d left) (h : d.description = []) : Entry col lineLength d left
  | beside {left text} (hl : Left d left) (h : d.description ≠ []) (hc : left.length < col) (hw : col + 1 < lineLength)
      (ht : Paragraphs col (lineLength - 1 - col) d.description text) :
      Entry col lineLength d (left ++ List.replicate (col - left.length) ' ' ++ text)
  | below {left text} (hl : Left d left) (h : d.description ≠ []) (hc : col ≤ left.length) (hw : col + 1 < lineLength)
      (ht : Paragraphs col (lineLength - 1 - col) d.description text) : Entry col lineLength d (left ++ newLine col ++ text)

/-- The text of a piece. -/
inductive PieceText (col : Nat) : Piece → Str → Prop
  | caption (c) : PieceText col (.caption c) (c ++ str% ":\n")
  | blank : PieceText col .blank (str% "\n")
  | entry {d ll out} (h : Entry col ll d out) : PieceText col (.entry d ll) (out ++ str% "\n")

/-- The text of several pieces. -/
inductive Text (col : Nat) : List Piece → Str → Prop
  | nil : Text col [] []
  | cons {p ps out out'} (h : PieceText col p out) (t : Text col ps out') : Text col (p :: ps) (out ++ out')

/-- The largest of some widths. -/
def Largest (ws : List Nat) (b : Nat) : Prop := b ∈ ws ∧ ∀ w ∈ ws, w ≤ b

/-- The left columns of some options. -/
inductive Lefts : List OptionDesc → List Nat → Prop
  | nil : Lefts [] []
  | cons {d ds left ws} (h : Left d left) (t : Lefts ds ws) : Lefts (d :: ds) (left.length :: ws)

mutual
/-- The column where descriptions begin: one more than the longest left column of all options, but at least 24 and at most the line length less
the minimal description length. The column of a group inside counts like a left column. (If the line length is 0, the available room is computed modulo
2^32.) -/
inductive Column : Tree → Nat → Prop
  | mk {caption ll md items lefts groups b room} (hl : Lefts items.declared lefts) (hg : Columns items groups) (hb : Largest (23 :: lefts ++ groups) b)
      (hm : ll ≠ 0 ∧ room = ll - md - 1 ∨ ll = 0 ∧ room = 2 ^ 32 - 1 - md) : Column (.mk caption ll md items) (min b room + 1)

/-- The columns of the groups inside. -/
inductive Columns : Items → List Nat → Prop
  | nil : Columns .nil []
  | opt {d rest ws} (h : Columns rest ws) : Columns (.opt d rest) ws
  | group {t rest w ws} (h : Column t w) (hr : Columns rest ws) : Columns (.group t rest) (w :: ws)
end

/-- How a typed value is shown: its name, with the implicit value in brackets and the default value after it. Values without a text are not
shown. -/
inductive Shown (t : TypedValue) : Str → Prop
  | plain (hi : ∀ v s, t.implicit = some (v, s) → s = []) (hd : ∀ v s, t.dflt = some (v, s) → s = []) :
      Shown t (if t.valueName = [] then str% "arg" else t.valueName)
  | dflt {v s} (hi : ∀ v s, t.implicit = some (v, s) → s = []) (hd : t.dflt = some (v, s)) (hs : s ≠ []) :
      Shown t ((if t.valueName = [] then str% "arg" else t.valueName) ++ str% " (=" ++ s ++ str% ")")
  | implicit {v s} (hi : t.implicit = some (v, s)) (hs : s ≠ []) (hd : ∀ v s, t.dflt = some (v, s) → s = []) :
      Shown t (str% "[=" ++ (if t.valueName = [] then str% "arg" else t.valueName) ++ str% "(=" ++ s ++ str% ")]")
  | both {v s v' s'} (hi : t.implicit = some (v, s)) (hs : s ≠ []) (hd : t.dflt = some (v', s')) (hs' : s' ≠ []) :
      Shown t (str% "[=" ++ (if t.valueName = [] then str% "arg" else t.valueName) ++ str% "(=" ++ s ++ str% ")] (=" ++ s' ++ str% ")")

end PO.Spec
