import Verif.Lemmas.Str
import Verif.Lemmas.Order
import Verif.Model.Parsers
/-
Lines and trimming; the ordered set of wildcard stems.
-/
namespace PO

/-! ### Trimming -/

theorem dropWhile_append_all {α : Type} (p : α → Bool) (a b : List α) (h : ∀ x ∈ a, p x = true) :
    (a ++ b).dropWhile p = b.dropWhile p := by
  induction a with
  | nil => rfl
  | cons x a ih =>
    rw [List.cons_append, List.dropWhile_cons, if_pos (h x (by simp))]
    exact ih fun y hy => h y (by simp [hy])

theorem dropWhile_reverse_append_all {α : Type} (p : α → Bool) (s ws : List α) (h : ∀ x ∈ ws, p x = true) :
    (((s ++ ws).dropWhile p).reverse.dropWhile p) = ((s.dropWhile p).reverse.dropWhile p) := by
  induction s with
  | nil =>
    have : (ws.dropWhile p) = [] := by
      have := dropWhile_append_all p ws [] h
      simpa using this
    simp [this]
  | cons x s ih =>
    rw [List.cons_append, List.dropWhile_cons, List.dropWhile_cons]
    by_cases hx : p x = true
    · rw [if_pos hx, if_pos hx]; exact ih
    · rw [if_neg hx, if_neg hx, ← List.cons_append, List.reverse_append]
      exact dropWhile_append_all p _ _ fun y hy => h y (by simpa using hy)

theorem trimWs_left (ws s : Str) (h : ∀ c ∈ ws, isWs c = true) : trimWs (ws ++ s) = trimWs s := by
  unfold trimWs
  rw [dropWhile_append_all _ _ _ h]

theorem trimWs_right (s ws : Str) (h : ∀ c ∈ ws, isWs c = true) : trimWs (s ++ ws) = trimWs s := by
  unfold trimWs
  rw [dropWhile_reverse_append_all _ _ _ h]

theorem trimWs_blank (ws : Str) (h : ∀ c ∈ ws, isWs c = true) : trimWs ws = [] := by
  have := trimWs_left ws [] h
  rw [List.append_nil] at this
  rw [this]; rfl

theorem dropWhile_head {α : Type} (p : α → Bool) (s : List α) (h : ∀ c, s.head? = some c → p c = false) :
    s.dropWhile p = s := by
  cases s with
  | nil => rfl
  | cons x s =>
    rw [List.dropWhile_cons, if_neg]
    rw [h x rfl]; simp

theorem trimWs_id (s : Str) (h1 : ∀ c, s.head? = some c → isWs c = false) (h2 : ∀ c, s.getLast? = some c → isWs c = false) :
    trimWs s = s := by
  unfold trimWs
  rw [dropWhile_head _ _ h1, dropWhile_head, List.reverse_reverse]
  intro c hc
  rw [List.head?_reverse] at hc
  exact h2 c hc

theorem trimWs_ends (s : Str) : (∀ c, (trimWs s).head? = some c → isWs c = false) ∧
    (∀ c, (trimWs s).getLast? = some c → isWs c = false) := by
  have hd : ∀ (l : Str) c, (l.dropWhile isWs).head? = some c → isWs c = false := by
    intro l c h
    induction l with
    | nil => simp at h
    | cons x l ih =>
      rw [List.dropWhile_cons] at h
      by_cases hx : isWs x = true
      · rw [if_pos hx] at h; exact ih h
      · rw [if_neg hx] at h
        simp only [List.head?_cons, Option.some.injEq] at h
        subst h; simpa using hx
  unfold trimWs
  constructor
  · intro c hc
    rw [List.head?_reverse] at hc
    -- the last character of `dropWhile` of a reversed list is the last of that list
    have hl : ∀ (l : Str) c, (l.dropWhile isWs).getLast? = some c → l.getLast? = some c := by
      intro l c h
      induction l with
      | nil => simp at h
      | cons x l ih =>
        rw [List.dropWhile_cons] at h
        by_cases hx : isWs x = true
        · rw [if_pos hx] at h
          have := ih h
          cases l with
          | nil => simp at this
          | cons y l => rw [List.getLast?_cons_cons]; exact this
        · rw [if_neg hx] at h; exact h
    have := hl _ c hc
    rw [List.getLast?_reverse] at this
    exact hd s c this
  · intro c hc
    rw [List.getLast?_reverse] at hc
    exact hd _ c hc

theorem stripLine_eq (l : Str) : stripLine l = trimWs (l.takeWhile (· != '#')) := by
  have key : ∀ l : Str, (match findChar l '#' with | some n => l.take n | none => l) = l.takeWhile (· != '#') := by
    intro l
    induction l with
    | nil => rfl
    | cons x l ih =>
      simp only [findChar]
      by_cases hx : x = '#'
      · simp [hx]
      · rw [List.takeWhile_cons]
        simp only [bne_iff_ne, ne_eq, hx, not_false_eq_true, if_true]
        rw [← ih]
        cases findChar l '#' <;> rfl
  unfold stripLine
  exact congrArg trimWs (key l)

theorem stripLine_id (l : Str) (h : '#' ∉ l) : stripLine l = trimWs l := by
  unfold stripLine
  rw [findChar_eq_none.2 h]

theorem takeWhile_append_hash (a b : Str) :
    (a ++ b).takeWhile (· != '#') = if '#' ∈ a then a.takeWhile (· != '#') else a ++ b.takeWhile (· != '#') := by
  induction a with
  | nil => simp
  | cons x a ih =>
    by_cases hx : x = '#'
    · simp [hx]
    · have hx' : '#' ≠ x := Ne.symm hx
      simp only [List.cons_append, List.takeWhile_cons, bne_iff_ne, ne_eq, hx, not_false_eq_true, if_true, ih,
        List.mem_cons, hx', false_or]
      split <;> rfl

/-! ### Lines -/

/-- The lines, each followed by a newline. -/
def unlines (ls : List Str) : Str := ls.flatMap (· ++ ['\n'])

theorem getlinesAux_line (sep : Char) (l rest cur : Str) (h : sep ∉ l) :
    getlinesAux sep (l ++ sep :: rest) cur = (cur ++ l) :: getlinesAux sep rest [] := by
  induction l generalizing cur with
  | nil => simp [getlinesAux]
  | cons x l ih =>
    have hx : x ≠ sep := by rintro rfl; simp at h
    rw [List.cons_append, getlinesAux, if_neg hx, ih _ (by simp at h; exact h.2)]
    simp

theorem getlinesAux_last (sep : Char) (l cur : Str) (h : sep ∉ l) :
    getlinesAux sep l cur = if cur ++ l = [] then [] else [cur ++ l] := by
  induction l generalizing cur with
  | nil => simp [getlinesAux]
  | cons x l ih =>
    have hx : x ≠ sep := by rintro rfl; simp at h
    rw [getlinesAux, if_neg hx, ih _ (by simp at h; exact h.2)]
    simp

theorem getlines_unlines (ls : List Str) (h : ∀ l ∈ ls, '\n' ∉ l) (last : Str) (hl : '\n' ∉ last) :
    getlines '\n' (unlines ls ++ last) = ls ++ (if last = [] then [] else [last]) := by
  unfold getlines
  induction ls with
  | nil => simp [unlines, getlinesAux_last _ _ _ hl]
  | cons l ls ih =>
    have : unlines (l :: ls) ++ last = l ++ '\n' :: (unlines ls ++ last) := by simp [unlines]
    rw [this, getlinesAux_line _ _ _ _ (h l (by simp)), ih fun x hx => h x (by simp [hx])]
    simp

theorem getlines_unlines' (ls : List Str) (h : ∀ l ∈ ls, '\n' ∉ l) : getlines '\n' (unlines ls) = ls := by
  have := getlines_unlines ls h [] (by simp)
  simpa using this

/-- Every text is a sequence of lines. -/
theorem exists_lines (text : Str) : ∃ ls last, (∀ l ∈ ls, '\n' ∉ l) ∧ '\n' ∉ last ∧ text = unlines ls ++ last := by
  induction text with
  | nil => exact ⟨[], [], by simp, by simp, rfl⟩
  | cons c t ih =>
    obtain ⟨ls, last, h1, h2, rfl⟩ := ih
    by_cases hc : c = '\n'
    · subst hc
      exact ⟨[] :: ls, last, by simpa using h1, h2, by simp [unlines]⟩
    · cases ls with
      | nil => exact ⟨[], c :: last, by simp, by simp [h2, Ne.symm hc], by simp [unlines]⟩
      | cons l ls =>
        refine ⟨(c :: l) :: ls, last, ?_, h2, by simp [unlines]⟩
        intro x hx
        rcases List.mem_cons.1 hx with rfl | hx
        · have := h1 l (by simp); simp [this, Ne.symm hc]
        · exact h1 x (by simp [hx])

/-! ### Prefixes and the order -/

theorem prefix_not_lt {a b : Str} (h : a <+: b) : strLt b a = false := by
  induction a generalizing b with
  | nil => cases b <;> rfl
  | cons x a ih =>
    cases b with
    | nil => simp at h
    | cons y b =>
      rw [List.cons_prefix_cons] at h
      obtain ⟨rfl, h⟩ := h
      simp [strLt, ih h]

theorem prefix_lt {a b : Str} (h : a <+: b) (hne : a ≠ b) : strLt a b = true := by
  cases hl : strLt a b with
  | true => rfl
  | false => exact absurd (strLt_connex hl (prefix_not_lt h)) hne

/-- If `a ≤ b ≤ c` and `a` is a prefix of `c`, then `a` is a prefix of `b`. -/
theorem prefix_sandwich {a b c : Str} (h1 : strLt b a = false) (h2 : strLt c b = false) (h : a <+: c) : a <+: b := by
  induction a generalizing b c with
  | nil => simp
  | cons x a ih =>
    cases c with
    | nil => simp at h
    | cons z c =>
      rw [List.cons_prefix_cons] at h
      obtain ⟨rfl, h⟩ := h
      cases b with
      | nil => simp [strLt] at h1
      | cons y b =>
        simp only [strLt] at h1 h2
        have : x = y := char_eq_of_toNat (by grind)
        subst this
        rw [List.cons_prefix_cons]
        exact ⟨rfl, ih (by grind) (by grind) h⟩

/-- `lower_bound` splits a sorted set. -/
theorem lowerBound_spec {m : SSet} (hs : m.Sorted) (s : Str) :
    (∀ (j : Nat) x, m[j]? = some x → j < m.lowerBound s → strLt x s = true) ∧
    (∀ (j : Nat) x, m[j]? = some x → m.lowerBound s ≤ j → strLt x s = false) := by
  induction m with
  | nil => simp
  | cons y ys ih =>
    rw [SSet.Sorted, List.pairwise_cons] at hs
    obtain ⟨i1, i2⟩ := ih hs.2
    simp only [SSet.lowerBound]
    by_cases hy : strLt y s = true
    · rw [if_pos hy]
      constructor
      · intro j x hj hlt
        cases j with
        | zero => simp at hj; exact hj ▸ hy
        | succ j => rw [List.getElem?_cons_succ] at hj; exact i1 j x hj (by omega)
      · intro j x hj hle
        cases j with
        | zero => omega
        | succ j => rw [List.getElem?_cons_succ] at hj; exact i2 j x hj (by omega)
    · rw [if_neg hy]
      constructor
      · intro j x _ h; omega
      · intro j x hj _
        have hy' : strLt y s = false := by simpa using hy
        cases j with
        | zero => simp at hj; exact hj ▸ hy'
        | succ j =>
          rw [List.getElem?_cons_succ] at hj
          have hyx := hs.1 x (List.mem_of_getElem? hj)
          cases hx : strLt x s with
          | false => rfl
          | true => rw [strLt_trans hyx hx] at hy'; cases hy'

theorem lowerBound_le (m : SSet) (s : Str) : m.lowerBound s ≤ m.length := by
  induction m with
  | nil => simp [SSet.lowerBound]
  | cons y ys ih => simp only [SSet.lowerBound]; split <;> simp <;> omega

/-- In a sorted set the predecessor of the lower bound is the greatest element below `s`. -/
theorem pred_greatest {m : SSet} (hs : m.Sorted) (s x : Str) (hx : x ∈ m) (hlt : strLt x s = true) :
    ∃ y, m.lowerBound s ≠ 0 ∧ m[m.lowerBound s - 1]? = some y ∧ strLt y s = true ∧ strLt y x = false := by
  obtain ⟨l1, l2⟩ := lowerBound_spec hs s
  obtain ⟨j, hj⟩ := List.getElem?_of_mem hx
  have hjl : j < m.lowerBound s := by
    by_cases h : j < m.lowerBound s
    · exact h
    · have := l2 j x hj (by omega); rw [hlt] at this; cases this
  have hle := lowerBound_le m s
  have hlen : m.lowerBound s - 1 < m.length := by omega
  refine ⟨m[m.lowerBound s - 1], by omega, by rw [List.getElem?_eq_getElem hlen], ?_, ?_⟩
  · exact l1 _ _ (List.getElem?_eq_getElem hlen) (by omega)
  · obtain ⟨hj1, rfl⟩ := List.getElem?_eq_some_iff.1 hj
    by_cases he : j = m.lowerBound s - 1
    · subst he; exact strLt_irrefl _
    · exact strLt_asymm (List.pairwise_iff_getElem.1 hs j (m.lowerBound s - 1) hj1 hlen (by omega))

/-- The lower bound is the least element not below `s`. -/
theorem lb_least {m : SSet} (hs : m.Sorted) (s x : Str) (hx : x ∈ m) (hle : strLt x s = false) :
    ∃ y, m[m.lowerBound s]? = some y ∧ strLt y s = false ∧ strLt x y = false := by
  obtain ⟨l1, l2⟩ := lowerBound_spec hs s
  obtain ⟨j, hj⟩ := List.getElem?_of_mem hx
  have hjl : m.lowerBound s ≤ j := by
    by_cases h : j < m.lowerBound s
    · have := l1 j x hj h; rw [hle] at this; cases this
    · omega
  obtain ⟨hj1, rfl⟩ := List.getElem?_eq_some_iff.1 hj
  have hlen : m.lowerBound s < m.length := by omega
  refine ⟨m[m.lowerBound s], List.getElem?_eq_getElem hlen, l2 _ _ (List.getElem?_eq_getElem hlen) (Nat.le_refl _), ?_⟩
  by_cases he : j = m.lowerBound s
  · subst he; exact strLt_irrefl _
  · exact strLt_asymm (List.pairwise_iff_getElem.1 hs (m.lowerBound s) j hlen hj1 (by omega))

/-- No element is a prefix of another one. -/
def PrefixFree (m : SSet) : Prop := ∀ x ∈ m, ∀ y ∈ m, x <+: y → x = y

/-- The test of `allowed_option` finds exactly the names that properly extend a stem. -/
theorem predecessor_test {m : SSet} (hs : m.Sorted) (hp : PrefixFree m) (s : Str) :
    (if m.lowerBound s = 0 then false
     else match m[m.lowerBound s - 1]? with
       | some x => findSub s x == some 0
       | none => false) = true ↔ ∃ x ∈ m, x <+: s ∧ x ≠ s := by
  constructor
  · intro h
    split at h
    · cases h
    · split at h
      · rename_i x hx
        have hmem := List.mem_of_getElem? hx
        have hlt := (lowerBound_spec hs s).1 _ x hx (by omega)
        rw [beq_iff_eq, findSub_eq_zero] at h
        exact ⟨x, hmem, h, strLt_ne hlt⟩
      · cases h
  · rintro ⟨x, hx, hpre, hne⟩
    obtain ⟨y, h0, hy, hys, hyx⟩ := pred_greatest hs s x hx (prefix_lt hpre hne)
    have hxy : x <+: y := prefix_sandwich hyx (strLt_asymm hys) hpre
    have := hp x hx y (List.mem_of_getElem? hy) hxy
    subst this
    rw [if_neg h0, hy]
    simp only [beq_iff_eq]
    exact (findSub_eq_zero _ _).2 hpre

/-- The two neighbour tests of `add_option` detect exactly the overlaps. -/
theorem overlap_test {m : SSet} (hs : m.Sorted) (hp : PrefixFree m) (s : Str) :
    ((match m[m.lowerBound s]? with | some x => findSub x s == some 0 | none => false) = true ∨
     (if m.lowerBound s = 0 then false
      else match m[m.lowerBound s - 1]? with | some x => findSub s x == some 0 | none => false) = true) ↔
      ∃ x ∈ m, x <+: s ∨ s <+: x := by
  rw [predecessor_test hs hp]
  constructor
  · rintro (h | ⟨x, hx, h, _⟩)
    · split at h
      · rename_i x hx
        rw [beq_iff_eq, findSub_eq_zero] at h
        exact ⟨x, List.mem_of_getElem? hx, .inr h⟩
      · cases h
    · exact ⟨x, hx, .inl h⟩
  · rintro ⟨x, hx, h⟩
    have hcase : (s <+: x) ∨ (x <+: s ∧ x ≠ s) := by
      rcases h with h | h
      · by_cases he : x = s
        · subst he; exact .inl h
        · exact .inr ⟨h, he⟩
      · exact .inl h
    rcases hcase with h | ⟨h, hne⟩
    · left
      obtain ⟨y, hy, hys, hxy⟩ := lb_least hs s x hx (prefix_not_lt h)
      rw [hy]
      simp only [beq_iff_eq]
      exact (findSub_eq_zero _ _).2 (prefix_sandwich hys hxy h)
    · exact .inr ⟨x, hx, h, hne⟩

end PO
