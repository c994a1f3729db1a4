import Verif.Model.Format
import Verif.Tests.Util
/-
C52-C55, C60: the help text.
-/
namespace PO

/-! ### C53, C54, C60: wrapping of a paragraph -/

/-- A place where a line `l` of at most `n` characters may end before the text `r`: next to a blank,
or, with the line full, in a word that takes more than half of the line. -/
def GoodBreak (n : Nat) (l r : Str) : Prop :=
  l ≠ [] ∧ l.length ≤ n ∧ r ≠ [] ∧
    (l.getLast? = some ' ' ∨ r.head? = some ' ' ∨ (l.length = n ∧ ' ' ∉ l.drop (n - n / 2)))

/-- `lines` is the text `s` broken into lines, the first of at most `n` characters and the others
of at most `m`. Nothing is lost but a single blank at the beginning of a line. -/
inductive Wraps (m : Nat) : Nat → Str → List Str → Prop
  | last (n l) : l.length ≤ n → Wraps m n l [l]
  | break_ (n l r ls) : GoodBreak n l r → Wraps m m r ls → Wraps m n (l ++ r) (l :: ls)
  | blank (n l r ls) : GoodBreak n l (' ' :: r) → r ≠ [] → r.head? ≠ some ' ' → Wraps m m r ls →
      Wraps m n (l ++ ' ' :: r) (l :: ls)

theorem afterLastSpace_spec (s : Str) :
    afterLastSpace s ≤ s.length ∧ ' ' ∉ s.drop (afterLastSpace s) ∧
      (afterLastSpace s ≠ 0 → (s.take (afterLastSpace s)).getLast? = some ' ') := by
  have hs : s = (s.reverse.dropWhile (fun c => c ≠ ' ')).reverse ++ (s.reverse.takeWhile (fun c => c ≠ ' ')).reverse := by
    rw [← List.reverse_append, List.takeWhile_append_dropWhile, List.reverse_reverse]
  have hlen : afterLastSpace s = (s.reverse.dropWhile (fun c => c ≠ ' ')).reverse.length := by
    rw [List.length_reverse]; rfl
  have hnt : ' ' ∉ (s.reverse.takeWhile (fun c => decide (c ≠ ' '))).reverse := by
    rw [List.mem_reverse]
    intro h
    have := List.all_takeWhile (l := s.reverse) (p := fun c => decide (c ≠ ' '))
    rw [List.all_eq_true] at this
    simpa using this _ h
  have hhd : ∀ x, (s.reverse.dropWhile (fun c => decide (c ≠ ' '))).head? = some x → x = ' ' := by
    intro x hx
    have := List.head?_dropWhile_not (fun c => decide (c ≠ ' ')) s.reverse
    rw [hx] at this
    simpa using this
  rw [hlen]
  generalize hA : (s.reverse.dropWhile (fun c => decide (c ≠ ' '))) = A at *
  generalize hB : (s.reverse.takeWhile (fun c => decide (c ≠ ' '))).reverse = B at *
  clear hA hB hlen
  subst hs
  refine ⟨by simp, by simpa using hnt, ?_⟩
  intro h
  rw [List.take_left]
  rw [List.getLast?_reverse]
  cases A with
  | nil => simp at h
  | cons a A => rw [hhd a rfl]; rfl

theorem lineEnd_cases (s : Str) (n : Nat) :
    (n < s.length ∧ afterLastSpace (s.take n) ≠ 0 ∧ lineEnd s n = afterLastSpace (s.take n)) ∨
    (n < s.length ∧ (afterLastSpace (s.take n) = 0 ∨ n / 2 ≤ n - afterLastSpace (s.take n)) ∧ lineEnd s n = n) ∨
    (lineEnd s n = min s.length n ∧
      (s[min s.length n - 1]? = some ' ' ∨ s.length ≤ min s.length n ∨ s[min s.length n]? = some ' ')) := by
  have hn' : (if s.length < n then s.length else n) = min s.length n := by split <;> omega
  unfold lineEnd
  simp only
  rw [hn']
  by_cases hc : s[min s.length n - 1]? ≠ some ' ' ∧ min s.length n < s.length ∧ s[min s.length n]? ≠ some ' '
  · rw [if_pos hc]
    have hmin : min s.length n = n := by omega
    rw [hmin] at hc ⊢
    by_cases hl : afterLastSpace (s.take n) ≠ 0 ∧ n - afterLastSpace (s.take n) < n / 2
    · rw [if_pos hl]
      exact .inl ⟨hc.2.1, hl.1, rfl⟩
    · rw [if_neg hl]
      refine .inr (.inl ⟨hc.2.1, ?_, rfl⟩)
      omega
  · rw [if_neg hc]
    refine .inr (.inr ⟨rfl, ?_⟩)
    rcases Decidable.not_and_iff_not_or_not.1 hc with h | h
    · exact .inl (Decidable.not_not.1 h)
    · rcases Decidable.not_and_iff_not_or_not.1 h with h | h
      · exact .inr (.inl (by omega))
      · exact .inr (.inr (Decidable.not_not.1 h))

theorem lineEnd_bounds (s : Str) (n : Nat) (hs : s ≠ []) (hn : 0 < n) :
    0 < lineEnd s n ∧ lineEnd s n ≤ n ∧ lineEnd s n ≤ s.length := by
  have hl : 0 < s.length := List.length_pos_iff.2 hs
  have ha := (afterLastSpace_spec (s.take n)).1
  rw [List.length_take] at ha
  rcases lineEnd_cases s n with ⟨h1, h2, h3⟩ | ⟨h1, _, h3⟩ | ⟨h3, _⟩ <;> rw [h3] <;> omega

theorem lineEnd_good (s : Str) (n : Nat) (hs : s ≠ []) (hn : 0 < n) (hlt : lineEnd s n < s.length) :
    GoodBreak n (s.take (lineEnd s n)) (s.drop (lineEnd s n)) := by
  obtain ⟨h1, h2, h3⟩ := lineEnd_bounds s n hs hn
  refine ⟨?_, by rw [List.length_take]; omega, ?_, ?_⟩
  · intro h
    have := congrArg List.length h
    rw [List.length_take, List.length_nil] at this
    omega
  · intro h
    have := congrArg List.length h
    rw [List.length_drop, List.length_nil] at this
    omega
  · have hspec := afterLastSpace_spec (s.take n)
    rcases lineEnd_cases s n with ⟨c1, c2, c3⟩ | ⟨c1, c2, c3⟩ | ⟨c3, c4⟩
    · rw [c3] at h1 h2 h3 hlt ⊢
      left
      have := hspec.2.2 c2
      rwa [List.take_take, Nat.min_eq_left h2] at this
    · rw [c3] at h1 h2 h3 hlt ⊢
      right; right
      refine ⟨by rw [List.length_take]; omega, ?_⟩
      intro hmem
      apply hspec.2.1
      have hle : afterLastSpace (s.take n) ≤ n - n / 2 := by
        have := hspec.1
        rw [List.length_take] at this
        omega
      obtain ⟨k, hk⟩ := Nat.exists_eq_add_of_le hle
      rw [hk, ← List.drop_drop] at hmem
      exact List.mem_of_mem_drop hmem
    · rw [c3] at h1 h2 h3 hlt ⊢
      rcases c4 with c4 | c4 | c4
      · left
        rw [List.getLast?_eq_getElem?, List.length_take, List.getElem?_take, if_pos (by omega)]
        rw [show min (min s.length n) s.length - 1 = min s.length n - 1 by omega]
        exact c4
      · omega
      · right; left
        rw [List.head?_drop]
        exact c4

theorem dropLead_cases (s : Str) : dropLead s = s ∨ ∃ r, s = ' ' :: r ∧ dropLead s = r ∧ r ≠ [] ∧ r.head? ≠ some ' ' := by
  unfold dropLead
  split
  · rename_i c r
    split
    · rename_i h
      exact .inr ⟨c :: r, rfl, rfl, by simp, by simpa using h⟩
    · exact .inl rfl
  · exact .inl rfl

theorem dropLead_ne (s : Str) (hs : s ≠ []) : dropLead s ≠ [] := by
  rcases dropLead_cases s with h | ⟨r, _, h, hr, _⟩
  · rw [h]; exact hs
  · rw [h]; exact hr

theorem dropLead_length (s : Str) : (dropLead s).length ≤ s.length := by
  rcases dropLead_cases s with h | ⟨r, h1, h, _, _⟩
  · rw [h]; exact Nat.le_refl _
  · rw [h, h1]; simp

/-- Wrapping the rest of a paragraph never fails. -/
theorem wrapRest_ok (m : Nat) (hm : 0 < m) (fuel : Nat) (s : Str) (hf : s.length ≤ fuel) : ∃ ls, wrapRest fuel s m = .ok ls := by
  induction fuel generalizing s with
  | zero =>
    have : s = [] := List.length_eq_zero_iff.1 (by omega)
    subst this
    exact ⟨[], rfl⟩
  | succ fuel ih =>
    cases s with
    | nil => exact ⟨[], rfl⟩
    | cons c cs =>
      have hb := lineEnd_bounds _ m (dropLead_ne (c :: cs) (by simp)) hm
      have hd := dropLead_length (c :: cs)
      obtain ⟨ls, e⟩ := ih ((dropLead (c :: cs)).drop (lineEnd (dropLead (c :: cs)) m)) (by
        rw [List.length_drop]; simp only [List.length_cons] at *; omega)
      exact ⟨_, by rw [wrapRest.eq_3 _ _ _ (by simp), if_neg (by omega)]; simp only; rw [e]⟩

theorem wrapRest_wraps (m : Nat) (fuel : Nat) (s : Str) (ls : List Str) (h : wrapRest fuel s m = .ok ls) :
    (s = [] ∧ ls = []) ∨ (s ≠ [] ∧ Wraps m m (dropLead s) ls) := by
  induction fuel generalizing s ls with
  | zero =>
    cases s with
    | nil => cases h; exact .inl ⟨rfl, rfl⟩
    | cons => cases h
  | succ fuel ih =>
    cases s with
    | nil => cases h; exact .inl ⟨rfl, rfl⟩
    | cons c cs =>
      right
      refine ⟨by simp, ?_⟩
      rw [wrapRest.eq_3 _ _ _ (by simp)] at h
      by_cases hm : m = 0
      · rw [if_pos hm] at h; cases h
      · rw [if_neg hm] at h
        simp only at h
        have hne := dropLead_ne (c :: cs) (by simp)
        generalize dropLead (c :: cs) = s' at *
        obtain ⟨b1, b2, b3⟩ := lineEnd_bounds s' m hne (by omega)
        cases hr : wrapRest fuel (s'.drop (lineEnd s' m)) m with
        | error f => rw [hr] at h; cases h
        | ok ls' =>
          rw [hr] at h
          cases h
          rcases ih _ _ hr with ⟨e1, rfl⟩ | ⟨e1, hw⟩
          · have : lineEnd s' m = s'.length := by
              have := congrArg List.length e1
              rw [List.length_drop] at this
              simp at this; omega
            rw [this, List.take_length]
            exact .last _ _ (by omega)
          · have hlt : lineEnd s' m < s'.length := by
              rcases Nat.lt_or_ge (lineEnd s' m) s'.length with h | h
              · exact h
              · exact absurd (List.drop_eq_nil_of_le h) e1
            have hg := lineEnd_good s' m hne (by omega) hlt
            have hsplit : s' = s'.take (lineEnd s' m) ++ s'.drop (lineEnd s' m) := (List.take_append_drop _ _).symm
            rcases dropLead_cases (s'.drop (lineEnd s' m)) with hd | ⟨r, hd1, hd2, hd3, hd4⟩
            · rw [hd] at hw
              have := Wraps.break_ m _ _ _ hg hw
              rwa [← hsplit] at this
            · rw [hd2] at hw
              rw [hd1] at hg
              have := Wraps.blank m _ _ _ hg hd3 hd4 hw
              rwa [← hd1, ← hsplit] at this

theorem findChar_spec (s : Str) (c : Char) :
    (findChar s c = none ∧ c ∉ s) ∨ (∃ i, findChar s c = some i ∧ i < s.length ∧ s.idxOf c = i ∧ c ∈ s ∧ c ∉ s.take i ∧ s.drop i = c :: s.drop (i + 1)) := by
  induction s with
  | nil => exact .inl ⟨rfl, by simp⟩
  | cons d s ih =>
    by_cases h : d = c
    · subst h
      exact .inr ⟨0, by simp [findChar], by simp, by simp, by simp, by simp, by simp⟩
    · rcases ih with ⟨h1, h2⟩ | ⟨i, h1, h2, h3, h4, h5, h6⟩
      · exact .inl ⟨by simp [findChar, h, h1], by simp [h2, Ne.symm h]⟩
      · refine .inr ⟨i + 1, by simp [findChar, h, h1], by simp [h2], ?_, by simp [h4], by simp [h5, Ne.symm h], by simpa using h6⟩
        rw [List.idxOf_cons, show (d == c) = false by simpa using h, h3]; rfl

/-- The extra indentation a tab asks for. -/
def tabColumn (par : Str) : Nat := if '\t' ∈ par then par.idxOf '\t' else 0

theorem filter_ne_of_count (s : Str) (c : Char) (i : Nat) (h1 : c ∉ s.take i) (h2 : s.drop i = c :: s.drop (i + 1)) (hc : s.count c ≤ 1) :
    s.filter (· ≠ c) = s.take i ++ s.drop (i + 1) ∧ s.count c = 1 := by
  have hs : s = s.take i ++ c :: s.drop (i + 1) := by rw [← h2, List.take_append_drop]
  have hcount : s.count c = (s.take i).count c + ((s.drop (i + 1)).count c + 1) := by
    conv => lhs; rw [hs]
    rw [List.count_append, List.count_cons_self]
  have hc2 : c ∉ s.drop (i + 1) := by
    rw [← List.count_eq_zero]; omega
  have f1 : ∀ t : Str, c ∉ t → t.filter (· ≠ c) = t := by
    intro t ht
    rw [List.filter_eq_self]
    intro x hx
    simp only [ne_eq, decide_not, Bool.not_eq_eq_eq_not, Bool.not_true, decide_eq_false_iff_not]
    rintro rfl
    exact ht hx
  constructor
  · conv => lhs; rw [hs]
    rw [List.filter_append, f1 _ h1, List.filter_cons_of_neg (by simp), f1 _ hc2]
  · rw [List.count_eq_zero.2 h1, List.count_eq_zero.2 hc2] at hcount
    omega

theorem parIndent_ok {par : Str} {len pi : Nat} {p : Str} (h : parIndent par len = .ok (pi, p)) :
    pi = tabColumn par ∧ p = par.filter (· ≠ '\t') ∧ par.count '\t' ≤ 1 ∧ (pi = 0 ∨ pi < len) := by
  unfold parIndent at h
  rcases findChar_spec par '\t' with ⟨h1, h2⟩ | ⟨i, h1, h2, h3, h4, h5, h6⟩
  · rw [h1] at h
    cases h
    refine ⟨by simp [tabColumn, h2], ?_, by rw [List.count_eq_zero.2 h2]; omega, .inl rfl⟩
    rw [eq_comm, List.filter_eq_self]
    intro x hx
    simp only [ne_eq, decide_not, Bool.not_eq_eq_eq_not, Bool.not_true, decide_eq_false_iff_not]
    rintro rfl
    exact h2 hx
  · rw [h1] at h
    simp only at h
    by_cases hc : par.count '\t' > 1
    · rw [if_pos hc] at h; cases h
    · rw [if_neg hc] at h
      by_cases hl : i < len
      · rw [if_pos hl] at h
        cases h
        refine ⟨by simp [tabColumn, h4, h3], (filter_ne_of_count par '\t' _ h5 h6 (by omega)).1.symm, by omega, .inr hl⟩
      · rw [if_neg hl] at h; cases h

theorem parIndent_succeeds (par : Str) (len : Nat) (hc : par.count '\t' ≤ 1) (hl : '\t' ∈ par → tabColumn par < len) :
    ∃ r, parIndent par len = .ok r := by
  unfold parIndent
  rcases findChar_spec par '\t' with ⟨h1, h2⟩ | ⟨i, h1, h2, h3, h4, h5, h6⟩
  · rw [h1]; exact ⟨_, rfl⟩
  · rw [h1]
    simp only
    have : i < len := by
      have := hl h4
      simpa [tabColumn, h4, h3] using this
    rw [if_neg (by omega), if_pos this]
    exact ⟨_, rfl⟩

theorem paragraphLines_wraps {par : Str} {indent ll pi : Nat} {ls : List Str} (h : paragraphLines par indent ll = .ok (pi, ls)) :
    indent < ll ∧ pi = tabColumn par ∧ (pi = 0 ∨ indent + pi < ll) ∧
      Wraps (ll - indent - pi) (ll - indent) (par.filter (· ≠ '\t')) ls := by
  unfold paragraphLines at h
  by_cases hi : indent < ll
  · rw [if_pos hi] at h
    simp only at h
    cases hp : parIndent par (ll - indent) with
    | error f => rw [hp] at h; cases h
    | ok r =>
      obtain ⟨pi', p⟩ := r
      obtain ⟨e1, e2, _, e4⟩ := parIndent_ok hp
      rw [hp] at h
      simp only at h
      have hpi : pi' = 0 ∨ indent + pi' < ll := by rcases e4 with e4 | e4 <;> omega
      by_cases hs : p.length < ll - indent
      · rw [if_pos hs] at h
        cases h
        exact ⟨hi, e1, hpi, by rw [← e2]; exact .last _ _ (by omega)⟩
      · rw [if_neg hs] at h
        cases hw : wrapRest p.length (p.drop (lineEnd p (ll - indent))) (ll - indent - pi') with
        | error f => rw [hw] at h; cases h
        | ok ls' =>
          rw [hw] at h
          cases h
          refine ⟨hi, e1, hpi, ?_⟩
          rw [← e2]
          have hne : p ≠ [] := by rintro rfl; simp at hs; omega
          have hpos : 0 < ll - indent := by omega
          obtain ⟨b1, b2, b3⟩ := lineEnd_bounds p (ll - indent) hne hpos
          rcases wrapRest_wraps _ _ _ _ hw with ⟨d1, rfl⟩ | ⟨d1, hwr⟩
          · have : lineEnd p (ll - indent) = p.length := by
              have := congrArg List.length d1
              rw [List.length_drop] at this
              simp at this; omega
            rw [this, List.take_length]
            exact .last _ _ (by omega)
          · have hlt : lineEnd p (ll - indent) < p.length := by
              rcases Nat.lt_or_ge (lineEnd p (ll - indent)) p.length with h | h
              · exact h
              · exact absurd (List.drop_eq_nil_of_le h) d1
            have hg := lineEnd_good p _ hne hpos hlt
            have hsplit : p = p.take (lineEnd p (ll - indent)) ++ p.drop (lineEnd p (ll - indent)) := (List.take_append_drop _ _).symm
            rcases dropLead_cases (p.drop (lineEnd p (ll - indent))) with hd | ⟨r, hd1, hd2, hd3, hd4⟩
            · rw [hd] at hwr
              have := Wraps.break_ _ _ _ _ hg hwr
              rwa [← hsplit] at this
            · rw [hd2] at hwr
              rw [hd1] at hg
              have := Wraps.blank _ _ _ _ hg hd3 hd4 hwr
              rwa [← hd1, ← hsplit] at this
  · rw [if_neg hi] at h; cases h

theorem joinLines_intercalate (pad : Nat) (ls : List Str) : joinLines pad ls = List.intercalate ('\n' :: List.replicate pad ' ') ls := by
  induction ls with
  | nil => rfl
  | cons l ls ih =>
    cases ls with
    | nil => simp [joinLines, List.intercalate]
    | cons l' ls =>
      rw [joinLines.eq_3 _ _ _ (by simp), ih]
      simp [List.intercalate, spaces, List.intersperse]

/-- **C53.** The output for a paragraph is its text without the tab, broken into lines with nothing
lost except single blanks at the breaks; the lines after the first are indented to the tab.
**C60.** A line ends next to a blank, or is full and ends in a word longer than half of the line. -/
theorem C53_lossless {par out : Str} {indent ll : Nat} (h : formatParagraph par indent ll = .ok out) :
    ∃ ls, Wraps (ll - indent - tabColumn par) (ll - indent) (par.filter (· ≠ '\t')) ls ∧
      out = List.intercalate ('\n' :: List.replicate (indent + tabColumn par) ' ') ls := by
  unfold formatParagraph at h
  cases hp : paragraphLines par indent ll with
  | error f => rw [hp] at h; cases h
  | ok r =>
    obtain ⟨pi, ls⟩ := r
    rw [hp] at h
    cases h
    obtain ⟨_, rfl, _, hw⟩ := paragraphLines_wraps hp
    exact ⟨ls, hw, joinLines_intercalate _ _⟩

/-- **C60.** In a wrapped paragraph, a line that does not end next to a blank is full, and the second
half of it contains no blank. -/
theorem C60_words_not_chopped {par out : Str} {indent ll : Nat} (h : formatParagraph par indent ll = .ok out) :
    ∃ ls, out = List.intercalate ('\n' :: List.replicate (indent + tabColumn par) ' ') ls ∧
      ∀ pre l post, ls = pre ++ l :: post → post ≠ [] →
        l.getLast? = some ' ' ∨ (∃ before after, par.filter (· ≠ '\t') = before ++ l ++ ' ' :: after) ∨
        (' ' ∉ l.drop (l.length - l.length / 2) ∧
          l.length = if pre = [] then ll - indent else ll - indent - tabColumn par) := by
  obtain ⟨ls, hw, rfl⟩ := C53_lossless h
  refine ⟨ls, rfl, ?_⟩
  have gen : ∀ n s ls, Wraps (ll - indent - tabColumn par) n s ls → ∀ pre l post, ls = pre ++ l :: post → post ≠ [] →
        l.getLast? = some ' ' ∨ (∃ before after, s = before ++ l ++ ' ' :: after) ∨
        (' ' ∉ l.drop (l.length - l.length / 2) ∧
          l.length = if pre = [] then n else ll - indent - tabColumn par) := by
    intro n s ls hw
    have step : ∀ n l r, GoodBreak n l r → l.getLast? = some ' ' ∨ (∃ before after, l ++ r = before ++ l ++ ' ' :: after) ∨
        (' ' ∉ l.drop (l.length - l.length / 2) ∧ l.length = n) := by
      rintro n l r ⟨_, _, hr, h | h | ⟨h1, h2⟩⟩
      · exact .inl h
      · cases r with
        | nil => exact absurd rfl hr
        | cons c r =>
          simp at h
          exact .inr (.inl ⟨[], r, by simp [h]⟩)
      · exact .inr (.inr ⟨by rw [h1]; exact h2, h1⟩)
    induction hw with
    | last n l hl =>
      intro pre l' post e hp
      cases pre with
      | nil => simp at e; exact absurd e.2 hp
      | cons a pre => simp at e
    | break_ n l r ls hg hw' ih =>
      intro pre l' post e hp
      cases pre with
      | nil =>
        simp at e
        obtain ⟨rfl, rfl⟩ := e
        simpa using step _ _ _ hg
      | cons a pre =>
        simp at e
        obtain ⟨rfl, rfl⟩ := e
        rcases ih pre l' post rfl hp with h | ⟨b, c, rfl⟩ | ⟨h1, h2⟩
        · exact .inl h
        · exact .inr (.inl ⟨l ++ b, c, by simp⟩)
        · refine .inr (.inr ⟨h1, ?_⟩)
          simpa using h2
    | blank n l r ls hg hr1 hr2 hw' ih =>
      intro pre l' post e hp
      cases pre with
      | nil =>
        simp at e
        obtain ⟨rfl, rfl⟩ := e
        simpa using step _ _ _ hg
      | cons a pre =>
        simp at e
        obtain ⟨rfl, rfl⟩ := e
        rcases ih pre l' post rfl hp with h | ⟨b, c, rfl⟩ | ⟨h1, h2⟩
        · exact .inl h
        · exact .inr (.inl ⟨l ++ ' ' :: b, c, by simp⟩)
        · refine .inr (.inr ⟨h1, ?_⟩)
          simpa using h2
  exact gen _ _ _ hw

example : formatParagraph (Test.L "a word \tand some more") 2 12 = .ok (Test.L "a word and\n         som\n         e m\n         ore") := by rfl

/-! ### C54: lines fit -/

/-- No part of the text without a newline is longer than `n`. -/
def LinesFit (n : Nat) (s : Str) : Prop := ∀ pre line post, s = pre ++ line ++ post → '\n' ∉ line → line.length ≤ n

theorem LinesFit.short {n : Nat} {s : Str} (h : s.length ≤ n) : LinesFit n s := by
  rintro pre line post rfl _
  simp at h
  omega

theorem LinesFit.newline {n : Nat} {a b : Str} (ha : LinesFit n a) (hb : LinesFit n b) : LinesFit n (a ++ '\n' :: b) := by
  intro pre line post h hn
  rw [List.append_assoc, List.append_eq_append_iff] at h
  rcases h with ⟨t, h1, h2⟩ | ⟨t, h1, h2⟩
  · cases t with
    | nil =>
      rw [List.nil_append] at h2
      cases line with
      | nil => simp
      | cons c line =>
        simp only [List.cons_append, List.cons.injEq] at h2
        rw [← h2.1] at hn
        simp at hn
    | cons c t =>
      simp only [List.cons_append, List.cons.injEq] at h2
      exact hb t line post (by rw [List.append_assoc]; exact h2.2) hn
  · rw [List.append_eq_append_iff] at h2
    rcases h2 with ⟨u, h3, h4⟩ | ⟨u, h3, h4⟩
    · exact ha pre line u (by rw [List.append_assoc, ← h3, ← h1]) hn
    · cases u with
      | nil =>
        rw [List.append_nil] at h3
        exact ha pre line [] (by rw [h1, h3]; simp) hn
      | cons c u =>
        simp only [List.cons_append, List.cons.injEq] at h4
        rw [h3, ← h4.1] at hn
        simp at hn

theorem LinesFit.mono {n m : Nat} {s : Str} (h : LinesFit n s) (hm : n ≤ m) : LinesFit m s :=
  fun pre line post e hn => Nat.le_trans (h pre line post e hn) hm

/-- Lines joined with an indentation. -/
theorem LinesFit.join {n indent pad : Nat} (l : Str) (ls : List Str) (h1 : LinesFit n (List.replicate indent ' ' ++ l))
    (h2 : ∀ x ∈ ls, LinesFit n (List.replicate pad ' ' ++ x)) :
    LinesFit n (List.replicate indent ' ' ++ List.intercalate ('\n' :: List.replicate pad ' ') (l :: ls)) := by
  induction ls generalizing l indent with
  | nil => simpa [List.intercalate] using h1
  | cons l' ls ih =>
    have := ih (indent := pad) l' (h2 l' (by simp)) (fun x hx => h2 x (by simp [hx]))
    have e : List.replicate indent ' ' ++ List.intercalate ('\n' :: List.replicate pad ' ') (l :: l' :: ls) =
        (List.replicate indent ' ' ++ l) ++ '\n' :: (List.replicate pad ' ' ++ List.intercalate ('\n' :: List.replicate pad ' ') (l' :: ls)) := by
      simp [List.intercalate, List.intersperse]
    rw [e]
    exact LinesFit.newline h1 this

theorem Wraps.lengths {m n : Nat} {s : Str} {ls : List Str} (h : Wraps m n s ls) :
    ∃ l ls', ls = l :: ls' ∧ l.length ≤ n ∧ ∀ x ∈ ls', x.length ≤ m := by
  induction h with
  | last n l hl => exact ⟨l, [], rfl, hl, by simp⟩
  | break_ n l r ls hg _ ih =>
    obtain ⟨l', ls', rfl, h1, h2⟩ := ih
    exact ⟨l, l' :: ls', rfl, hg.2.1, by simp [h1]; exact h2⟩
  | blank n l r ls hg _ _ _ ih =>
    obtain ⟨l', ls', rfl, h1, h2⟩ := ih
    exact ⟨l, l' :: ls', rfl, hg.2.1, by simp [h1]; exact h2⟩

/-- **C54.** No line of a wrapped paragraph, starting at column `indent`, is longer than the line
length. -/
theorem C54_paragraph {par out : Str} {indent ll : Nat} (h : formatParagraph par indent ll = .ok out) :
    LinesFit ll (List.replicate indent ' ' ++ out) := by
  have hlt : indent < ll ∧ (tabColumn par = 0 ∨ indent + tabColumn par < ll) := by
    unfold formatParagraph at h
    cases hp : paragraphLines par indent ll with
    | error f => rw [hp] at h; cases h
    | ok r =>
      obtain ⟨pi, ls⟩ := r
      obtain ⟨h1, h2, h3, _⟩ := paragraphLines_wraps hp
      exact ⟨h1, h2 ▸ h3⟩
  obtain ⟨ls, hw, rfl⟩ := C53_lossless h
  obtain ⟨l, ls', rfl, h1, h2⟩ := hw.lengths
  refine LinesFit.join _ _ (.short ?_) (fun x hx => .short ?_)
  · simp; omega
  · have := h2 x hx
    simp; omega

/-- ... nor of a description of several paragraphs: one column is left free. -/
theorem C54_description {desc out : Str} {col ll : Nat} (h : formatDescription desc col ll = .ok out) :
    LinesFit (ll - 1) (List.replicate col ' ' ++ out) := by
  unfold formatDescription at h
  by_cases h1 : ll > 1
  · rw [if_pos h1] at h
    by_cases h2 : ll - 1 > col
    · rw [if_pos h2] at h
      cases hp : formatPars col (ll - 1) (splitNl desc) with
      | error f => rw [hp] at h; cases h
      | ok ts =>
        rw [hp] at h
        cases h
        rw [joinLines_intercalate]
        have hall : ∀ ps ts, formatPars col (ll - 1) ps = .ok ts → ∀ t ∈ ts, LinesFit (ll - 1) (List.replicate col ' ' ++ t) := by
          intro ps
          induction ps with
          | nil => intro ts h t ht; cases h; cases ht
          | cons p ps ih =>
            intro ts h t ht
            rw [formatPars] at h
            cases h3 : formatParagraph p col (ll - 1) with
            | error f => rw [h3] at h; cases h
            | ok t' =>
              rw [h3] at h
              simp only at h
              cases h4 : formatPars col (ll - 1) ps with
              | error f => rw [h4] at h; cases h
              | ok ts' =>
                rw [h4] at h
                cases h
                rcases List.mem_cons.1 ht with rfl | ht
                · exact C54_paragraph h3
                · exact ih _ h4 _ ht
        have := hall _ _ hp
        cases ts with
        | nil => exact .short (by simp [List.intercalate]; omega)
        | cons t ts =>
          exact LinesFit.join _ _ (this t (by simp)) (fun x hx => this x (by simp [hx]))
    · rw [if_neg h2] at h; cases h
  · rw [if_neg h1] at h; cases h

/-- ... nor of the entry of an option, unless its left column is. -/
theorem C54_entry {d : OptionDesc} {left out : Str} {col ll : Nat} (hl : d.leftColumn = .ok left) (h : formatOne d col ll = .ok out) :
    LinesFit (max left.length (ll - 1)) out := by
  unfold formatOne at h
  rw [hl] at h
  simp only at h
  by_cases hd : d.description = []
  · rw [if_pos hd] at h
    cases h
    exact .short (by omega)
  · rw [if_neg hd] at h
    cases hf : formatDescription d.description col ll with
    | error f => rw [hf] at h; cases h
    | ok t =>
      rw [hf] at h
      cases h
      have hfit := C54_description hf
      by_cases hc : left.length ≥ col
      · rw [if_pos hc, List.append_assoc, List.cons_append]
        exact LinesFit.newline (.short (by omega)) (hfit.mono (by omega))
      · rw [if_neg hc]
        intro pre line post e hn
        -- replacing the left column by blanks gives a text with the same lengths
        have hcol : col = left.length + (col - left.length) := by omega
        rw [hcol, ← List.replicate_append_replicate, List.append_assoc] at hfit
        refine Nat.le_trans ?_ (Nat.le_max_right _ _)
        change left ++ List.replicate (col - left.length) ' ' ++ t = pre ++ line ++ post at e
        rw [List.append_assoc] at e
        generalize List.replicate (col - left.length) ' ' ++ t = rest at *
        rw [List.append_assoc, List.append_eq_append_iff] at e
        rcases e with ⟨u, e1, e2⟩ | ⟨u, e1, e2⟩
        · exact hfit (List.replicate left.length ' ' ++ u) line post (by rw [e2]; simp) hn
        · rw [List.append_eq_append_iff] at e2
          rcases e2 with ⟨v, e3, e4⟩ | ⟨v, e3, e4⟩
          · have := hfit (List.replicate pre.length ' ') (List.replicate line.length ' ') (List.replicate v.length ' ' ++ rest) (by
              rw [e1, e3, List.length_append, List.length_append, ← List.replicate_append_replicate, ← List.replicate_append_replicate]; simp only [List.append_assoc]) (by simp)
            simpa using this
          · have hv : '\n' ∉ v := fun hv => hn (by rw [e3]; simp [hv])
            have := hfit (List.replicate pre.length ' ') (List.replicate u.length ' ' ++ v) post (by
              rw [e1, e4, List.length_append, ← List.replicate_append_replicate]; simp only [List.append_assoc]) (by simp [hv])
            rw [e3]
            simpa using this

example : formatOne (Test.od "foo" (untypedValue Test.env false) "a bb ccc d") 12 18 =
    .ok (Test.L "  --foo arg a bb \n            ccc d") := by rfl

end PO
