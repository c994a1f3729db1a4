import Verif.Props.Release
import Verif.Spec.Tabs
/-
C127: tabs as documented.
-/
namespace PO.Tabs
open Spec

theorem line_unique {n : Nat} (hn : 0 < n) {l r l' r' : Str} (h : Line n l r) (h' : Line n l' r') (e : l ++ r = l' ++ r') : l = l' ∧ r = r' := by
  have h1 := line_split hn h
  have h2 := line_split hn h'
  rw [e] at h1
  exact ⟨h1.1.symm.trans h2.1, h1.2.symm.trans h2.2⟩

theorem trims_unique {s t t' : Str} (h : Trims s t) (h' : Trims s t') : t = t' := (trims_iff.1 h).trans (trims_iff.1 h').symm

theorem trims_length {s t : Str} (h : Trims s t) : s.length ≤ t.length + 1 ∧ t.length ≤ s.length := by
  cases h with
  | blank => simp
  | keep => omega

/-- The lines contain all of the text, but at most one blank for each break. -/
theorem lines_length {m n : Nat} {s : Str} {ls : List Str} (h : Lines m n s ls) :
    0 < ls.length ∧ ls.flatten.length ≤ s.length ∧ s.length + 1 ≤ ls.flatten.length + ls.length := by
  induction h with
  | last h => simp
  | next h hr ht t ih =>
    have := trims_length ht
    simp only [List.length_append, List.flatten_cons, List.length_cons] at *
    omega

theorem lines_mem {m n : Nat} {s : Str} {ls : List Str} (h : Lines m n s ls) : ∀ l ∈ ls, ∀ c ∈ l, c ∈ s := by
  induction h with
  | last h => simp
  | next h hr ht t ih =>
    intro l hl c hc
    rcases List.mem_cons.1 hl with rfl | hl
    · simp [hc]
    · have := ih l hl c hc
      cases ht with
      | blank => exact List.mem_append_right _ (List.mem_cons_of_mem _ this)
      | keep => simp [this]

theorem intercalate_length (col : Nat) (ls : List Str) (h : ls ≠ []) :
    ((newLine col).intercalate ls).length + (1 + col) = ls.flatten.length + ls.length * (1 + col) := by
  induction ls with
  | nil => exact absurd rfl h
  | cons l ls ih =>
    cases ls with
    | nil => simp [List.intercalate]
    | cons l' ls =>
      have ih := ih (by simp)
      have e : (newLine col).intercalate (l :: l' :: ls) = l ++ newLine col ++ (newLine col).intercalate (l' :: ls) := by
        simp [List.intercalate, List.intersperse]
      rw [e]
      simp only [List.length_append, List.flatten_cons, List.length_cons, newLine, List.length_replicate] at ih ⊢
      rw [Nat.add_mul (ls.length + 1) 1 (1 + col)]
      omega

theorem intercalate_breaks (col : Nat) (ls : List Str) (h : ls ≠ []) (hn : ∀ l ∈ ls, '\n' ∉ l) :
    ((newLine col).intercalate ls).count '\n' + 1 = ls.length := by
  induction ls with
  | nil => exact absurd rfl h
  | cons l ls ih =>
    have hl := List.count_eq_zero.2 (hn l (by simp))
    cases ls with
    | nil => simp [List.intercalate, hl]
    | cons l' ls =>
      have ih := ih (by simp) (fun x hx => hn x (by simp [hx]))
      have e : (newLine col).intercalate (l :: l' :: ls) = l ++ newLine col ++ (newLine col).intercalate (l' :: ls) := by
        simp [List.intercalate, List.intersperse]
      have hr : (List.replicate col ' ').count '\n' = 0 := List.count_eq_zero.2 (by simp)
      rw [e]
      simp only [List.count_append, newLine, List.count_cons_self, hl, hr, List.length_cons] at ih ⊢
      omega

/-- With a second line, an indentation shows. -/
theorem indent_shows {col n k : Nat} (hk : 0 < k) (hkn : k < n) {s l r : Str} (hs : '\n' ∉ s) (hl : Line n l r) (he : l ++ r = s) (hr : r ≠ []) {ls ls' : List Str}
    (h : Lines (n - k) n s ls) (h' : Lines n n s ls') : (newLine (col + k)).intercalate ls ≠ (newLine col).intercalate ls' := by
  intro e
  have hb := congrArg (List.count '\n') e
  have h1 := intercalate_breaks (col + k) ls (by rintro rfl; cases h) (fun x hx hm => hs (lines_mem h x hx _ hm))
  have h2 := intercalate_breaks col ls' (by rintro rfl; cases h') (fun x hx hm => hs (lines_mem h' x hx _ hm))
  have hc := congrArg List.length e
  have h3 := intercalate_length (col + k) ls (by rintro rfl; cases h)
  have h4 := intercalate_length col ls' (by rintro rfl; cases h')
  have hlen : ls.length = ls'.length := by omega
  cases h with
  | last hx =>
    obtain ⟨-, rfl⟩ := line_unique (by omega) hl hx (by simpa using he)
    exact hr rfl
  | @next _ l1 r1 r1' ls1 hx hrx ht t =>
    generalize hq : l1 ++ r1 = q at h'
    cases h' with
    | last hy =>
      obtain ⟨-, rfl⟩ := line_unique (by omega) hx hy (by simpa using hq)
      exact hrx rfl
    | @next _ l2 r2 r2' ls2 hy hry hu u =>
      obtain ⟨rfl, rfl⟩ := line_unique (by omega) hx hy hq
      cases trims_unique ht hu
      obtain ⟨a1, a2, a3⟩ := lines_length t
      obtain ⟨b1, b2, b3⟩ := lines_length u
      simp only [List.length_cons, List.flatten_cons, List.length_append] at hlen h3 h4
      have e2 : ls1.length = ls2.length := by omega
      rw [hc] at h3
      rw [e2] at h3 a3
      have m1 : (ls2.length + 1) * (1 + (col + k)) = (ls2.length + 1) * (1 + col) + (ls2.length + 1) * k := by rw [← Nat.mul_add]; congr 1; omega
      have m2 : ls2.length ≤ ls2.length * k := Nat.le_mul_of_pos_right _ hk
      have m3 : (ls2.length + 1) * k = ls2.length * k + k := Nat.succ_mul _ _
      omega

/-- What is documented is a function of the paragraph. -/
theorem documented_unique {col n : Nat} (hn : 0 < n) {s out out' : Str} (h : DocumentedParagraph col n s out) (h' : DocumentedParagraph col n s out') : out = out' := by
  have lu := @Release.lines_unique
  have tabs : ∀ {par a b l r a' b' l' r' : Str}, TabIn n par a b l r → TabIn n par a' b' l' r' → a = a' ∧ b = b' ∧ l = l' ∧ r = r' := by
    intro par a b l r a' b' l' r' h h'
    obtain ⟨rfl, rfl⟩ := sep_unique h.before h'.before (h.par_eq.symm.trans h'.par_eq)
    obtain ⟨rfl, rfl⟩ := line_unique hn h.line h'.line (h.text.trans h'.text.symm)
    exact ⟨rfl, rfl, rfl, rfl⟩
  cases h with
  | plain h1 h2 =>
    cases h' with
    | plain h3 h4 => rw [lu hn hn h2 h4]
    | indent h3 => exact absurd (by rw [h3.par_eq]; simp) h1
    | ignored h3 => exact absurd (by rw [h3.par_eq]; simp) h1
  | indent h1 h2 h3 h4 =>
    cases h' with
    | plain h5 => exact absurd (by rw [h1.par_eq]; simp) h5
    | indent h5 h6 h7 h8 =>
      obtain ⟨rfl, rfl, rfl, rfl⟩ := tabs h1 h5
      rw [lu (by omega) hn h4 h8]
    | ignored h5 h6 h7 =>
      obtain ⟨rfl, rfl, rfl, rfl⟩ := tabs h1 h5
      omega
  | ignored h1 h2 h3 =>
    cases h' with
    | plain h5 => exact absurd (by rw [h1.par_eq]; simp) h5
    | indent h5 h6 h7 h8 =>
      obtain ⟨rfl, rfl, rfl, rfl⟩ := tabs h1 h5
      omega
    | ignored h5 h6 h7 =>
      obtain ⟨rfl, rfl, rfl, rfl⟩ := tabs h1 h5
      rw [lu hn hn h3 h7]

theorem lines_exist {m n : Nat} (hm : 0 < m) (hn : 0 < n) (s : Str) : ∃ ls, Lines m n s ls := by
  have hx := lines_exact hm hn s
  by_cases hs : s.length < n
  · exact ⟨[s], (hx _).1 (by rw [if_pos hs])⟩
  · obtain ⟨t, ht⟩ := wrapRest_ok m hm s.length (s.drop (lineEnd s n)) (by rw [List.length_drop]; omega)
    exact ⟨s.take (lineEnd s n) :: t, (hx _).1 (by rw [if_neg hs, ht])⟩

theorem tabIn_exists {n : Nat} (hn : 0 < n) {a b : Str} (ha : '\t' ∉ a) (hb : '\t' ∉ b) : ∃ l r, TabIn n (a ++ '\t' :: b) a b l r :=
  ⟨_, _, rfl, ha, hb, line_of (a ++ b) hn, List.take_append_drop _ _⟩

/-- A single line is the same with any width and indentation for the others. -/
theorem one_line {n m : Nat} (hn : 0 < n) {s l : Str} (hl : Line n l []) (he : l ++ [] = s) {ls : List Str} (h : Lines m n s ls) :
    ls = [s] ∧ ∀ m', Lines m' n s [s] := by
  cases h with
  | last h => exact ⟨rfl, fun _ => .last h⟩
  | next hx hr ht t =>
    obtain ⟨-, rfl⟩ := line_unique hn hl hx he
    exact absurd rfl hr

theorem intercalate_one (col : Nat) (s : Str) : (newLine col).intercalate [s] = s := by simp [List.intercalate]

/-- **C127, exactly, without assertions.** A paragraph is printed as documented iff it is not the case that it needs a second line and its tab is in a word that
is moved to the second line, or at the last position of the first line. -/
theorem C127_release_iff (par : Str) {col n : Nat} (h : col < n) (hn : n < 2 ^ 32) (hc : col < 2 ^ 31) (hp : par.length < 2 ^ 31) (hnl : '\n' ∉ par) :
    (∀ out, Release.formatParagraph par col n = .ok out ↔ DocumentedParagraph col (n - col) par out) ↔ ¬ Misplaced (n - col) par := by
  have hpos : 0 < n - col := by omega
  simp only [Release.paragraph_exact par _ hn hc hp]
  have key : ∀ {a b : Str}, par = a ++ '\t' :: b → '\n' ∉ a ++ b := by
    intro a b e hm
    apply hnl
    rw [e]
    simpa using hm
  constructor
  · rintro hall ⟨a, b, l, r, ht, hr, ha, hm⟩
    have hk : 0 < a.length := List.length_pos_iff.2 ha
    have hlt : a.length < n - col := by omega
    obtain ⟨ls, h1⟩ := lines_exist (m := n - col - a.length) (by omega) hpos (a ++ b)
    obtain ⟨ls', h2⟩ := lines_exist hpos hpos (a ++ b)
    have r1 : LooseParagraph col n par ((newLine (col + a.length)).intercalate ls) := by
      rw [ht.par_eq]
      exact .usual h (.tab ht.before ht.behind hlt h1)
    have r2 : DocumentedParagraph col (n - col) par ((newLine col).intercalate ls') := .ignored ht (by omega) h2
    exact indent_shows hk hlt (key ht.par_eq) ht.line ht.text hr h1 h2 (documented_unique hpos ((hall _).1 r1) r2)
  · intro hm out
    constructor
    · intro hl
      cases hl with
      | usual _ hq =>
        cases hq with
        | plain h1 h2 => exact .plain h1 h2
        | @tab a b ls h1 h2 h3 h4 =>
          obtain ⟨l, r, ht⟩ := tabIn_exists hpos h1 h2
          by_cases hd : a.length ≤ l.length ∧ a.length + 1 < n - col
          · exact .indent ht hd.1 hd.2 h4
          · have hcase : l.length < a.length ∨ n - col ≤ a.length + 1 := by omega
            by_cases ha : a = []
            · subst ha
              simp only [List.length_nil, Nat.sub_zero, Nat.add_zero] at h4 ⊢
              exact .ignored ht hcase h4
            · have hr : r = [] := by
                apply Classical.byContradiction
                intro hr
                exact hm ⟨a, b, l, r, ht, hr, ha, by omega⟩
              subst hr
              obtain ⟨rfl, h5⟩ := one_line hpos ht.line ht.text h4
              have := DocumentedParagraph.ignored (col := col) ht hcase (h5 _)
              rw [intercalate_one] at this ⊢
              exact this
      | late _ h1 h2 h3 h4 =>
        obtain ⟨l, r, ht⟩ := tabIn_exists hpos h1 h2
        exact .ignored ht (.inr (by omega)) h4
      | beyond h' => omega
      | void h' => omega
    · intro hd
      cases hd with
      | plain h1 h2 => exact .usual h (.plain h1 h2)
      | @indent a b l r ls ht h1 h2 h3 =>
        rw [ht.par_eq]
        exact .usual h (.tab ht.before ht.behind (by omega) h3)
      | @ignored a b l r ls ht h1 h2 =>
        rw [ht.par_eq]
        by_cases hlate : n - col ≤ a.length
        · exact .late h ht.before ht.behind hlate h2
        · by_cases ha : a = []
          · subst ha
            exact .usual h (.tab ht.before ht.behind (by omega) h2)
          · have hr : r = [] := by
              apply Classical.byContradiction
              intro hr
              exact hm ⟨a, b, l, r, ht, hr, ha, by omega⟩
            subst hr
            obtain ⟨rfl, h5⟩ := one_line hpos ht.line ht.text h2
            have := Paragraph.tab (col := col) ht.before ht.behind (by omega) (h5 _)
            rw [intercalate_one] at this ⊢
            exact .usual h this

/-- **C127, exactly, with assertions**: and iff moreover its only tab is not beyond the columns of a line. -/
theorem C127_debug_iff (par : Str) {col n : Nat} (h : col < n) (hn : n < 2 ^ 32) (hc : col < 2 ^ 31) (hp : par.length < 2 ^ 31) (hnl : '\n' ∉ par) :
    (∀ out, formatParagraph par col n = .ok out ↔ DocumentedParagraph col (n - col) par out) ↔
      ¬ Misplaced (n - col) par ∧ ¬ ∃ a b, par = a ++ '\t' :: b ∧ '\t' ∉ a ∧ '\t' ∉ b ∧ n - col ≤ a.length := by
  have hpos : 0 < n - col := by omega
  have rel := C127_release_iff par h hn hc hp hnl
  simp only [Release.paragraph_exact par _ hn hc hp] at rel
  simp only [PO.paragraph_exact]
  constructor
  · intro hall
    have hlate : ¬ ∃ a b, par = a ++ '\t' :: b ∧ '\t' ∉ a ∧ '\t' ∉ b ∧ n - col ≤ a.length := by
      rintro ⟨a, b, rfl, ha, hb, hle⟩
      obtain ⟨l, r, ht⟩ := tabIn_exists hpos ha hb
      obtain ⟨ls, hl⟩ := lines_exist hpos hpos (a ++ b)
      have := ((hall _).2 (.ignored ht (.inr (by omega)) hl)).2
      generalize hq : a ++ '\t' :: b = q at this
      generalize (newLine col).intercalate ls = o at this
      cases this with
      | plain hx => subst hq; simp at hx
      | tab h1 h2 h3 =>
        obtain ⟨rfl, rfl⟩ := sep_unique ha h1 hq
        omega
    refine ⟨rel.1 fun out => ?_, hlate⟩
    rw [← hall out]
    constructor
    · intro hx
      cases hx with
      | usual _ h => exact ⟨by omega, h⟩
      | late _ h1 h2 h3 => exact absurd ⟨_, _, rfl, h1, h2, h3⟩ hlate
      | beyond => omega
      | void => omega
    · rintro ⟨h1, h2⟩
      exact .usual h h2
  · rintro ⟨h1, h2⟩ out
    rw [← rel.2 h1 out]
    constructor
    · rintro ⟨-, h3⟩
      exact .usual h h3
    · intro hx
      cases hx with
      | usual _ h => exact ⟨by omega, h⟩
      | late _ h5 h3 h4 => exact absurd ⟨_, _, rfl, h5, h3, h4⟩ h2
      | beyond => omega
      | void => omega

/-- **C127, what holds**: in both builds, a tab on the first line, before the last position, indents the other lines, as documented. -/
theorem C127_partial {par a b l r : Str} {col n : Nat} (h : col < n) (hn : n < 2 ^ 32) (hc : col < 2 ^ 31) (hp : par.length < 2 ^ 31)
    (ht : TabIn (n - col) par a b l r) (h1 : a.length ≤ l.length) (h2 : a.length + 1 < n - col) (out : Str) :
    (formatParagraph par col n = .ok out ↔ DocumentedParagraph col (n - col) par out) ∧
    (Release.formatParagraph par col n = .ok out ↔ DocumentedParagraph col (n - col) par out) := by
  have doc : DocumentedParagraph col (n - col) par out ↔ Paragraph col (n - col) par out := by
    constructor
    · intro hd
      cases hd with
      | plain h3 h4 => exact absurd (by rw [ht.par_eq]; simp) h3
      | indent h3 h4 h5 h6 =>
        rw [h3.par_eq]
        exact .tab h3.before h3.behind (by omega) h6
      | ignored h3 h4 h5 =>
        obtain ⟨rfl, rfl⟩ := sep_unique ht.before h3.before (ht.par_eq.symm.trans h3.par_eq)
        obtain ⟨rfl, rfl⟩ := line_unique (by omega) ht.line h3.line (ht.text.trans h3.text.symm)
        omega
    · intro hd
      cases hd with
      | plain h3 h4 => exact absurd (by rw [ht.par_eq]; simp) h3
      | tab h3 h4 h5 h6 =>
        obtain ⟨rfl, rfl⟩ := sep_unique ht.before h3 ht.par_eq.symm
        exact .indent ht h1 h2 h6
  rw [doc, PO.paragraph_exact, Release.paragraph_exact par _ hn hc hp]
  refine ⟨⟨fun h => h.2, fun h' => ⟨h, h'⟩⟩, ⟨fun hx => ?_, fun h' => .usual h h'⟩⟩
  cases hx with
  | usual _ h => exact h
  | late _ h3 h4 h5 =>
    obtain ⟨rfl, rfl⟩ := sep_unique ht.before h3 ht.par_eq.symm
    omega
  | beyond => omega
  | void => omega

theorem mem_intercalate {sep : Str} {c : Char} (hs : c ∉ sep) : ∀ ls : List Str, (∀ l ∈ ls, c ∉ l) → c ∉ sep.intercalate ls
  | [], _ => by simp [List.intercalate]
  | [l], h => by simpa [List.intercalate] using h
  | l :: l' :: ls, h => by
    have ih := mem_intercalate hs (l' :: ls) fun x hx => h x (by simp [hx])
    have e : sep.intercalate (l :: l' :: ls) = l ++ sep ++ sep.intercalate (l' :: ls) := by
      simp [List.intercalate, List.intersperse]
    rw [e]
    simp only [List.mem_append, not_or]
    exact ⟨⟨h l (by simp), hs⟩, ih⟩

/-- The tab is not in the output, in both builds. -/
theorem C127_removed (par : Str) {col n : Nat} (hn : n < 2 ^ 32) (hc : col < 2 ^ 31) (hp : par.length < 2 ^ 31) (out : Str) :
    (formatParagraph par col n = .ok out → '\t' ∉ out) ∧ (Release.formatParagraph par col n = .ok out → '\t' ∉ out) := by
  have nl : ∀ k, '\t' ∉ newLine k := by intro k; simp [newLine]
  have lines : ∀ {m n k : Nat} {s : Str} {ls : List Str}, Lines m n s ls → '\t' ∉ s → '\t' ∉ (newLine k).intercalate ls := by
    intro m n k s ls h hs
    exact mem_intercalate (nl k) ls fun l hl hm => hs (lines_mem h l hl _ hm)
  have usual : ∀ {n : Nat}, Paragraph col n par out → '\t' ∉ out := by
    intro n h
    cases h with
    | plain h1 h2 => exact lines h2 h1
    | tab h1 h2 h3 h4 => exact lines h4 (by simp [h1, h2])
  constructor
  · intro h
    exact usual ((PO.paragraph_exact _ _ _ _).1 h).2
  · intro h
    have h := (Release.paragraph_exact par out hn hc hp).1 h
    cases h with
    | usual _ h => exact usual h
    | late _ h1 h2 h3 h4 => exact lines h4 (by simp [h1, h2])
    | beyond => simp
    | void => simp

/-- Two tabs are reported, in both builds (with room for a column), and nothing else is. -/
theorem C127_one_tab (par : Str) {col n : Nat} (h : col < n) (hn : n < 2 ^ 32) (hc : col < 2 ^ 31) (hp : par.length < 2 ^ 31) :
    (formatParagraph par col n = .error Release.tabError ↔ 1 < par.count '\t') ∧
    (Release.formatParagraph par col n = .error Release.tabError ↔ 1 < par.count '\t') := by
  constructor
  · rcases Release.tab_cases par with ⟨h1, h2⟩ | ⟨h1, i, h2⟩ | ⟨a, b, rfl, ha, hb, h2, h3, h4⟩
    · obtain ⟨ls, hl⟩ := lines_exist (m := n - col) (n := n - col) (by omega) (by omega) par
      rw [(PO.paragraph_exact par _ col n).2 ⟨h, .plain h1 hl⟩, List.count_eq_zero.2 h1]
      exact ⟨(fun h => nomatch h), fun h => by omega⟩
    · refine ⟨fun _ => h1, fun _ => ?_⟩
      unfold formatParagraph paragraphLines parIndent
      rw [if_pos h, h2]
      dsimp only
      rw [if_pos h1]
      rfl
    · refine ⟨fun hx => ?_, fun h => by omega⟩
      by_cases hlt : a.length < n - col
      · obtain ⟨ls, hl⟩ := lines_exist (m := n - col - a.length) (n := n - col) (by omega) (by omega) (a ++ b)
        rw [(PO.paragraph_exact _ _ col n).2 ⟨h, .tab ha hb hlt hl⟩] at hx
        cases hx
      · unfold formatParagraph paragraphLines parIndent at hx
        rw [if_pos h, h2] at hx
        dsimp only at hx
        rw [if_neg (by omega), if_neg hlt] at hx
        cases hx
  · rcases Release.paragraph_outcome par hn hc hp with ⟨h1, -, o, h2, -⟩ | ⟨h1, h2, -⟩ | ⟨h1, -, -, -, h2, -⟩
    · rw [h2]
      exact ⟨(fun h => nomatch h), fun h => by omega⟩
    · exact ⟨fun _ => h1, fun _ => h2⟩
    · rw [h2]
      exact ⟨(fun h => nomatch h), fun h => by omega⟩

/-! ### Where the code and the documentation differ -/

/-- The last possible position of the first line (ten columns): the tab is not ignored, and the other lines have one column each. -/
def lastPosition : Str := Test.L "Value is:" ++ '\t' :: Test.L " abc"

/-- The tab is in a word that is moved to the second line: it is not ignored. -/
def movedWord : Str := Test.L "aaaaaaa bb" ++ '\t' :: Test.L "bbb cc"

/-- **C127 is false.** In both builds, a tab at the last position of the first line, or beyond it, is not ignored. -/
theorem C127_not :
    (formatParagraph lastPosition 0 10 = Release.formatParagraph lastPosition 0 10 ∧
      ∃ out, formatParagraph lastPosition 0 10 = .ok out ∧ ¬ DocumentedParagraph 0 10 lastPosition out) ∧
    (formatParagraph movedWord 0 12 = Release.formatParagraph movedWord 0 12 ∧
      ∃ out, formatParagraph movedWord 0 12 = .ok out ∧ ¬ DocumentedParagraph 0 12 movedWord out) := by
  refine ⟨⟨rfl, Test.L "Value is: " ++ newLine 9 ++ Test.L "a" ++ newLine 9 ++ Test.L "b" ++ newLine 9 ++ Test.L "c", rfl, fun h => ?_⟩,
    ⟨rfl, Test.L "aaaaaaa " ++ newLine 10 ++ Test.L "bb" ++ newLine 10 ++ Test.L "bb" ++ newLine 10 ++ Test.L "b " ++ newLine 10 ++ Test.L "cc", rfl, fun h => ?_⟩⟩
  · have ht : TabIn 10 lastPosition (Test.L "Value is:") (Test.L " abc") (Test.L "Value is: ") (Test.L "abc") :=
      ⟨rfl, by decide, by decide, .full rfl (by decide) (by decide), rfl⟩
    have hl : Lines 10 10 (Test.L "Value is: abc") [Test.L "Value is: ", Test.L "abc"] := (lines_exact (by decide) (by decide) _ _).1 rfl
    exact absurd (documented_unique (by decide) h (.ignored ht (.inr (by decide)) hl)) (by decide)
  · have ht : TabIn 12 movedWord (Test.L "aaaaaaa bb") (Test.L "bbb cc") (Test.L "aaaaaaa ") (Test.L "bbbbb cc") :=
      ⟨rfl, by decide, by decide, .back (w := Test.L "bbbb") (r := Test.L "b cc") rfl (by decide) (by decide) (by decide) (by decide) (by decide) (by decide), rfl⟩
    have hl : Lines 12 12 (Test.L "aaaaaaa bbbbb cc") [Test.L "aaaaaaa ", Test.L "bbbbb cc"] := (lines_exact (by decide) (by decide) _ _).1 rfl
    exact absurd (documented_unique (by decide) h (.ignored ht (.inl (by decide)) hl)) (by decide)

/-! ### Examples -/

/-- The example of the documentation, shortened: the tab is on the first line. -/
def value1 : Str := Test.L "  Value1: " ++ '\t' :: Test.L "does this and that, bla bla"

example : TabIn 23 value1 (Test.L "  Value1: ") (Test.L "does this and that, bla bla") (Test.L "  Value1: does this and") (Test.L " that, bla bla") :=
  ⟨rfl, by decide, by decide, .full (by decide) (by decide) (by decide), rfl⟩

example : formatParagraph value1 24 47 = .ok (Test.L "  Value1: does this and" ++ newLine 34 ++ Test.L "that, bla bla") := rfl

/-- A tab beyond the line. -/
example : Release.formatParagraph (Test.L "abcdef" ++ '\t' :: Test.L "ghijk") 0 5 = .ok (Test.L "abcde" ++ newLine 0 ++ Test.L "fghij" ++ newLine 0 ++ Test.L "k") ∧
    ∀ out, formatParagraph (Test.L "abcdef" ++ '\t' :: Test.L "ghijk") 0 5 ≠ .ok out := ⟨rfl, fun _ h => nomatch h⟩

example : Misplaced 10 lastPosition :=
  ⟨Test.L "Value is:", Test.L " abc", Test.L "Value is: ", Test.L "abc", ⟨rfl, by decide, by decide, .full rfl (by decide) (by decide), rfl⟩, by decide, by decide, by decide⟩

end PO.Tabs
