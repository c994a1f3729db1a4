import Verif.Spec.Help
import Verif.Props.Help
/-
C81: the text of the help, exactly.
-/
namespace PO
open Spec

/-! ### Lines -/

theorem afterLastSpace_append {l w : Str} (hw : ' ' ∉ w) (hl : l = [] ∨ l.getLast? = some ' ') : afterLastSpace (l ++ w) = l.length := by
  unfold afterLastSpace
  rw [List.reverse_append, List.dropWhile_append_of_pos]
  · rcases hl with rfl | hl
    · rfl
    · rw [← List.head?_reverse] at hl
      rw [← List.length_reverse (as := l)]
      cases h : l.reverse with
      | nil => rw [h] at hl; cases hl
      | cons a t =>
        rw [h] at hl
        injection hl with hl
        subst hl
        simp
  · intro c hc
    have : c ≠ ' ' := by rintro rfl; exact hw (List.mem_reverse.1 hc)
    simpa using this

theorem lineEnd_eq {s : Str} {n : Nat} : lineEnd s n =
    if s[min s.length n - 1]? ≠ some ' ' ∧ min s.length n < s.length ∧ s[min s.length n]? ≠ some ' ' then
      if afterLastSpace (s.take (min s.length n)) ≠ 0 ∧ min s.length n - afterLastSpace (s.take (min s.length n)) < n / 2 then
        afterLastSpace (s.take (min s.length n)) else min s.length n
    else min s.length n := by
  have hn' : (if s.length < n then s.length else n) = min s.length n := by split <;> omega
  unfold lineEnd
  dsimp only
  rw [hn']

theorem line_end {n : Nat} (hn : 0 < n) {l r : Str} (h : Line n l r) : lineEnd (l ++ r) n = l.length := by
  have last : ∀ l r : Str, l.length = n → (l ++ r)[n - 1]? = l.getLast? := by
    intro l r hl
    rw [List.getElem?_append_left (by omega), List.getLast?_eq_getElem?, hl]
  have next : ∀ l r : Str, l.length = n → (l ++ r)[n]? = r.head? := by
    intro l r hl
    rw [List.getElem?_append_right (by omega), hl, Nat.sub_self, List.head?_eq_getElem?]
  rw [lineEnd_eq]
  cases h with
  | all h =>
    rw [List.append_nil, Nat.min_eq_left h, if_neg (fun h => absurd h.2.1 (Nat.lt_irrefl _))]
  | full h hr hb =>
    have hlen : min (l ++ r).length n = n := by rw [List.length_append]; omega
    rw [hlen, last l r h, next l r h, if_neg (by rintro ⟨h1, -, h2⟩; rcases hb with hb | hb <;> contradiction), h]
  | back h hr hb hl hw hs hh =>
    rename_i w r
    have hlen : min (l ++ (w ++ r)).length n = n := by
      rw [← List.append_assoc, List.length_append]; omega
    rw [hlen, ← List.append_assoc, last _ r h, next _ r h]
    have hwl : (l ++ w).getLast? ≠ some ' ' := by
      rw [List.getLast?_append]
      intro he
      rw [List.getLast?_eq_some_getLast hw, Option.some_or] at he
      rw [← List.getLast?_eq_some_getLast hw] at he
      exact hs (List.mem_of_getLast? he)
    have hr' : 0 < r.length := List.length_pos_iff.2 hr
    rw [if_pos ⟨hwl, by rw [List.length_append]; omega, hb⟩, List.take_left' h, afterLastSpace_append hs (.inr hl)]
    have hl0 : l.length ≠ 0 := by
      intro e
      rw [List.length_eq_zero_iff.1 e] at hl
      cases hl
    rw [List.length_append] at h
    rw [if_pos ⟨hl0, by omega⟩]
  | chop h hr hb hl hh =>
    have hr' : 0 < r.length := List.length_pos_iff.2 hr
    have hlen : min (l ++ r).length n = n := by rw [List.length_append]; omega
    rw [hlen, last l r h, next l r h, if_pos ⟨hl, by rw [List.length_append]; omega, hb⟩, List.take_left' h, h]
    obtain ⟨a1, a2, a3⟩ := afterLastSpace_spec l
    rw [if_neg]
    rintro ⟨h0, h1⟩
    obtain ⟨pre, hp⟩ : ∃ pre, l.take (afterLastSpace l) = pre ++ [' '] := by
      have := a3 h0
      rw [List.getLast?_eq_some_iff] at this
      exact this
    have := hh pre (l.drop (afterLastSpace l)) (by
      conv => lhs; rw [← List.take_append_drop (afterLastSpace l) l, hp]
      simp)
    rw [List.length_drop] at this
    omega

theorem line_of (s : Str) {n : Nat} (hn : 0 < n) : Line n (s.take (lineEnd s n)) (s.drop (lineEnd s n)) := by
  by_cases hle : s.length ≤ n
  · have : lineEnd s n = s.length := by
      have := line_end hn (.all hle : Line n s [])
      rwa [List.append_nil] at this
    rw [this, List.take_length, List.drop_length]
    exact .all hle
  · have hmin : min s.length n = n := by omega
    have htl : (s.take n).length = n := by rw [List.length_take]; omega
    have hlast : (s.take n).getLast? = s[n - 1]? := by
      rw [List.getLast?_eq_getElem?, htl, List.getElem?_take_of_lt (by omega)]
    have hdn : s.drop n ≠ [] := by
      intro e
      have := congrArg List.length e
      rw [List.length_drop, List.length_nil] at this
      omega
    rw [lineEnd_eq, hmin]
    by_cases hc : s[n - 1]? ≠ some ' ' ∧ n < s.length ∧ s[n]? ≠ some ' '
    · rw [if_pos hc]
      obtain ⟨a1, a2, a3⟩ := afterLastSpace_spec (s.take n)
      generalize hls : afterLastSpace (s.take n) = ls at *
      rw [htl] at a1
      by_cases hb : ls ≠ 0 ∧ n - ls < n / 2
      · rw [if_pos hb]
        have hsplit : s.drop ls = (s.take n).drop ls ++ s.drop n := by
          rw [← List.drop_append_of_le_length (by rw [htl]; exact a1), List.take_append_drop]
        rw [hsplit]
        have htt : s.take ls = (s.take n).take ls := by rw [List.take_take, Nat.min_eq_left a1]
        rw [htt]
        refine .back (by rw [List.take_append_drop, htl]) hdn (by rw [List.head?_drop]; exact hc.2.2) (a3 hb.1) ?_ a2 (by rw [List.length_drop, htl]; exact hb.2)
        intro e
        have h3 := a3 hb.1
        have : (s.take n).take ls = s.take n := by
          have := List.take_append_drop ls (s.take n)
          rw [e, List.append_nil] at this
          exact this
        rw [this, hlast] at h3
        exact hc.1 h3
      · rw [if_neg hb]
        refine .chop htl hdn (by rw [List.head?_drop]; exact hc.2.2) (by rw [hlast]; exact hc.1) ?_
        intro pre w e
        by_cases h0 : ls = 0
        · rw [h0, List.drop_zero, e] at a2
          simp at a2
        · have hge : n / 2 ≤ n - ls := by omega
          have : pre.length + 1 ≤ ls := by
            rcases Nat.lt_or_ge pre.length ls with h | h
            · exact h
            · exfalso
              apply a2
              rw [e, List.drop_append_of_le_length h]
              simp
          have hlen := congrArg List.length e
          rw [htl, List.length_append, List.length_cons] at hlen
          omega
    · rw [if_neg hc]
      refine .full htl hdn ?_
      rw [hlast, List.head?_drop]
      by_cases h1 : s[n - 1]? = some ' '
      · exact .inl h1
      · by_cases h2 : s[n]? = some ' '
        · exact .inr h2
        · exact absurd ⟨h1, by omega, h2⟩ hc

theorem trims_iff {s s' : Str} : Trims s s' ↔ s' = dropLead s := by
  constructor
  · intro h
    cases h with
    | blank h => simp [dropLead, h]
    | keep h =>
      unfold dropLead
      split
      · rename_i c r
        rw [if_neg (by simpa using h c r rfl)]
      · rfl
  · rintro rfl
    unfold dropLead
    split
    · rename_i c r
      split
      · rename_i h; exact .blank h
      · rename_i h
        refine .keep fun c' t e => ?_
        cases e
        simpa using h
    · rename_i h
      exact .keep fun c t e => absurd e (h c t)

theorem line_split {n : Nat} (hn : 0 < n) {l r : Str} (h : Line n l r) :
    (l ++ r).take (lineEnd (l ++ r) n) = l ∧ (l ++ r).drop (lineEnd (l ++ r) n) = r := by
  rw [line_end hn h]; simp

theorem lines_wrap {m n : Nat} (hm : 0 < m) (hn : 0 < n) {s : Str} {ls : List Str} (h : Lines m n s ls) (fuel : Nat)
    (hf : (s.drop (lineEnd s n)).length ≤ fuel) :
    ∃ t, ls = s.take (lineEnd s n) :: t ∧ wrapRest fuel (s.drop (lineEnd s n)) m = .ok t := by
  induction h generalizing fuel with
  | @last n s h =>
    obtain ⟨h1, h2⟩ := line_split hn h
    rw [List.append_nil] at h1 h2
    rw [h1, h2]
    exact ⟨[], rfl, by cases fuel <;> rfl⟩
  | @next n l r r' ls h hr ht t ih =>
    obtain ⟨h1, h2⟩ := line_split hn h
    rw [h1]
    rw [h2] at hf ⊢
    refine ⟨ls, rfl, ?_⟩
    cases r with
    | nil => exact absurd rfl hr
    | cons c cs =>
      cases fuel with
      | zero => simp at hf
      | succ fuel =>
        have hd := dropLead_length (c :: cs)
        have hne := dropLead_ne (c :: cs) (by simp)
        rw [trims_iff.1 ht] at ih
        have hb := lineEnd_bounds _ m hne hm
        obtain ⟨t, e1, e2⟩ := ih hm fuel (by rw [List.length_drop]; simp only [List.length_cons] at *; omega)
        rw [wrapRest.eq_3 _ _ _ (by simp), if_neg (by omega)]
        dsimp only
        rw [e2, e1]

theorem wrap_lines {m : Nat} (hm : 0 < m) (fuel : Nat) : ∀ (n : Nat) (_ : 0 < n) (s : Str) (t : List Str),
    wrapRest fuel (s.drop (lineEnd s n)) m = .ok t → Lines m n s (s.take (lineEnd s n) :: t) := by
  induction fuel with
  | zero =>
    intro n hn s t h
    have hl := line_of s hn
    cases hr : s.drop (lineEnd s n) with
    | nil =>
      rw [hr] at h hl
      cases h
      have e : s.take (lineEnd s n) = s := by
        have := List.take_append_drop (lineEnd s n) s
        rwa [hr, List.append_nil] at this
      rw [e] at hl ⊢
      exact .last hl
    | cons c cs => rw [hr] at h; cases h
  | succ fuel ih =>
    intro n hn s t h
    have hl := line_of s hn
    cases hr : s.drop (lineEnd s n) with
    | nil =>
      rw [hr] at h hl
      cases h
      have e : s.take (lineEnd s n) = s := by
        have := List.take_append_drop (lineEnd s n) s
        rwa [hr, List.append_nil] at this
      rw [e] at hl ⊢
      exact .last hl
    | cons c cs =>
      rw [hr, wrapRest.eq_3 _ _ _ (by simp), if_neg (by omega)] at h
      dsimp only at h
      cases hw : wrapRest fuel (List.drop (lineEnd (dropLead (c :: cs)) m) (dropLead (c :: cs))) m with
      | error f => rw [hw] at h; cases h
      | ok ls =>
        rw [hw] at h
        cases h
        have := ih m hm _ _ hw
        rw [hr] at hl
        have := Lines.next hl (by simp) (trims_iff.2 rfl) this
        rw [← hr, List.take_append_drop] at this
        rwa [← hr]

/-! ### Paragraphs -/

theorem lines_exact {m n : Nat} (hm : 0 < m) (hn : 0 < n) (s : Str) (ls : List Str) :
    (if s.length < n then Except.ok [s] else
      match wrapRest s.length (s.drop (lineEnd s n)) m with
      | .error f => Except.error f
      | .ok t => (.ok (s.take (lineEnd s n) :: t) : Except Fail (List Str))) = .ok ls ↔ Lines m n s ls := by
  by_cases hlt : s.length < n
  · rw [if_pos hlt]
    have he : lineEnd s n = s.length := by
      have := line_end hn (.all (Nat.le_of_lt hlt) : Line n s [])
      rwa [List.append_nil] at this
    constructor
    · intro h; cases h; exact .last (.all (Nat.le_of_lt hlt))
    · intro h
      obtain ⟨t, e1, e2⟩ := lines_wrap hm hn h s.length (by rw [List.length_drop]; omega)
      rw [he, List.drop_length] at e2
      have : t = [] := by cases hs : s.length <;> rw [hs] at e2 <;> cases e2 <;> rfl
      rw [e1, this, he, List.take_length]
  · rw [if_neg hlt]
    constructor
    · intro h
      cases hw : wrapRest s.length (s.drop (lineEnd s n)) m with
      | error f => rw [hw] at h; cases h
      | ok t =>
        rw [hw] at h
        cases h
        exact wrap_lines hm _ n hn s t hw
    · intro h
      obtain ⟨t, e1, e2⟩ := lines_wrap hm hn h s.length (by rw [List.length_drop]; omega)
      rw [e2, e1]

theorem sep_unique {c : Char} {a b a' b' : Str} (ha : c ∉ a) (ha' : c ∉ a') (h : a ++ c :: b = a' ++ c :: b') : a = a' ∧ b = b' := by
  induction a generalizing a' with
  | nil =>
    cases a' with
    | nil => simpa using h
    | cons x a' => simp only [List.nil_append, List.cons_append, List.cons.injEq] at h; simp [h.1] at ha'
  | cons x a ih =>
    cases a' with
    | nil => simp only [List.nil_append, List.cons_append, List.cons.injEq] at h; simp [h.1] at ha
    | cons y a' =>
      simp only [List.cons_append, List.cons.injEq] at h
      simp only [List.mem_cons, not_or] at ha ha'
      obtain ⟨rfl, rfl⟩ := ih ha.2 ha'.2 h.2
      rw [h.1]
      exact ⟨rfl, rfl⟩

theorem paragraph_exact (par out : Str) (indent ll : Nat) :
    formatParagraph par indent ll = .ok out ↔ indent < ll ∧ Paragraph indent (ll - indent) par out := by
  have core : ∀ (pi : Nat) (p : Str), 0 < ll - indent → 0 < ll - indent - pi →
      ((match (match (.ok (pi, p) : Except Fail (Nat × Str)) with
        | .error f => Except.error f
        | .ok (pi, p) =>
          if p.length < ll - indent then .ok (pi, [p])
          else
            match wrapRest p.length (p.drop (lineEnd p (ll - indent))) (ll - indent - pi) with
            | .error f => Except.error f
            | .ok ls => (.ok (pi, p.take (lineEnd p (ll - indent)) :: ls) : Except Fail (Nat × List Str))) with
        | .error f => Except.error f
        | .ok (pi, ls) => (.ok (joinLines (indent + pi) ls) : Except Fail Str)) = .ok out ↔
      ∃ ls, Lines (ll - indent - pi) (ll - indent) p ls ∧ out = (newLine (indent + pi)).intercalate ls) := by
    intro pi p h1 h2
    simp only [← lines_exact h2 h1 p, joinLines_intercalate, newLine]
    by_cases hs : p.length < ll - indent
    · simp only [if_pos hs]
      constructor
      · intro h; cases h; exact ⟨_, rfl, rfl⟩
      · rintro ⟨ls, e, rfl⟩; cases e; rfl
    · simp only [if_neg hs]
      cases wrapRest p.length (p.drop (lineEnd p (ll - indent))) (ll - indent - pi) with
      | error f =>
        constructor
        · intro h; cases h
        · rintro ⟨ls, e, -⟩; cases e
      | ok t =>
        constructor
        · intro h; cases h; exact ⟨_, rfl, rfl⟩
        · rintro ⟨ls, e, rfl⟩; cases e; rfl
  unfold formatParagraph paragraphLines
  by_cases hi : indent < ll
  · rw [if_pos hi]
    dsimp only
    have hn : 0 < ll - indent := by omega
    unfold parIndent
    rcases findChar_spec par '\t' with ⟨h1, h2⟩ | ⟨i, h1, h2, h3, h4, h5, h6⟩
    · rw [h1]
      dsimp only
      refine (core 0 par hn hn).trans ?_
      constructor
      · rintro ⟨ls, h, rfl⟩
        exact ⟨hi, .plain h2 h⟩
      · rintro ⟨-, h⟩
        cases h with
        | plain _ hl => exact ⟨_, hl, rfl⟩
        | tab => simp at h2
    · rw [h1]
      dsimp only
      have hpar : par = par.take i ++ '\t' :: par.drop (i + 1) := by rw [← h6, List.take_append_drop]
      have hlen : (par.take i).length = i := by rw [List.length_take]; omega
      by_cases hc : par.count '\t' > 1
      · rw [if_pos hc]
        constructor
        · intro h; cases h
        · rintro ⟨-, h⟩
          cases h with
          | plain h => exact absurd h4 h
          | tab ha hb => simp [List.count_append, List.count_eq_zero.2 ha, List.count_eq_zero.2 hb] at hc
      · rw [if_neg hc]
        have hb : '\t' ∉ par.drop (i + 1) := by
          rw [← List.count_eq_zero]
          rw [hpar, List.count_append, List.count_cons_self] at hc
          omega
        have uniq : ∀ a b : Str, '\t' ∉ a → par = a ++ '\t' :: b → a = par.take i ∧ b = par.drop (i + 1) := by
          intro a b ha e
          exact sep_unique ha h5 (by rw [← e]; exact hpar)
        by_cases hl : i < ll - indent
        · rw [if_pos hl]
          refine (core i _ hn (by omega)).trans ?_
          constructor
          · rintro ⟨ls, h, rfl⟩
            refine ⟨hi, ?_⟩
            have := Paragraph.tab (col := indent) (n := ll - indent) h5 hb (by rw [hlen]; exact hl) (by rw [hlen]; exact h)
            rwa [← hpar, hlen] at this
          · rintro ⟨-, h⟩
            generalize hp : par = p at h
            cases h with
            | plain h => subst hp; exact absurd h4 h
            | @tab a b ls ha hb hn hl =>
              obtain ⟨rfl, rfl⟩ := uniq a b ha hp
              rw [hlen] at hl
              exact ⟨ls, by rw [← hp]; exact hl, by rw [hlen]⟩
        · rw [if_neg hl]
          constructor
          · intro h; cases h
          · rintro ⟨-, h⟩
            generalize hp : par = p at h
            cases h with
            | plain h => subst hp; exact absurd h4 h
            | @tab a b ls ha hb hn hl' =>
              obtain ⟨rfl, rfl⟩ := uniq a b ha hp
              rw [hlen] at hn
              exact absurd hn hl
  · rw [if_neg hi]
    constructor
    · intro h; cases h
    · rintro ⟨h, -⟩; exact absurd h hi

theorem splitNl_append {s s' : Str} (h : '\n' ∉ s) : splitNl (s ++ '\n' :: s') = s :: splitNl s' := by
  induction s with
  | nil => simp [splitNl]
  | cons c s ih =>
    simp only [List.mem_cons, not_or] at h
    rw [List.cons_append, splitNl, if_neg (Ne.symm h.1), ih h.2]

theorem splitNl_one {s : Str} (h : '\n' ∉ s) : splitNl s = [s] := by
  induction s with
  | nil => rfl
  | cons c s ih =>
    simp only [List.mem_cons, not_or] at h
    rw [splitNl, if_neg (Ne.symm h.1), ih h.2]

theorem first_nl (s : Str) : '\n' ∉ s ∨ ∃ a b, s = a ++ '\n' :: b ∧ '\n' ∉ a := by
  induction s with
  | nil => exact .inl (by simp)
  | cons c s ih =>
    by_cases hc : c = '\n'
    · exact .inr ⟨[], s, by rw [hc]; rfl, by simp⟩
    · rcases ih with ih | ⟨a, b, e, h⟩
      · exact .inl (by simp [Ne.symm hc, ih])
      · exact .inr ⟨c :: a, b, by rw [e]; rfl, by simp [Ne.symm hc, h]⟩

theorem formatPars_paragraphs {col ll : Nat} (hc : col < ll) (k : Nat) : ∀ (s : Str), s.length ≤ k → ∀ out,
    (match formatPars col ll (splitNl s) with
      | .error f => Except.error f
      | .ok ts => .ok (joinLines col ts)) = .ok out ↔ Paragraphs col (ll - col) s out := by
  have one : ∀ s : Str, '\n' ∉ s → ∀ out, (match formatPars col ll (splitNl s) with
      | .error f => Except.error f
      | .ok ts => .ok (joinLines col ts)) = .ok out ↔ Paragraphs col (ll - col) s out := by
    intro s hs out
    rw [splitNl_one hs, formatPars, formatPars]
    have key := paragraph_exact s out col ll
    constructor
    · intro h
      refine .one hs ((key.1 ?_).2)
      cases hp : formatParagraph s col ll with
      | error f => rw [hp] at h; cases h
      | ok t => rw [hp] at h; cases h; rfl
    · intro h
      generalize hs' : s = s' at h
      cases h with
      | one _ hp => subst hs'; rw [key.2 ⟨hc, hp⟩]; rfl
      | cons => subst hs'; simp at hs
  induction k with
  | zero =>
    intro s hs out
    have : s = [] := List.length_eq_zero_iff.1 (by omega)
    subst this
    exact one [] (by simp) out
  | succ k ih =>
    intro s hs out
    rcases first_nl s with h | ⟨a, b, rfl, h⟩
    · exact one s h out
    · have ih := ih b (by simp at hs; omega)
      rw [splitNl_append h, formatPars]
      have hne : splitNl b ≠ [] := (splitNl_spec b).2.2
      constructor
      · intro e
        cases hp : formatParagraph a col ll with
        | error f => rw [hp] at e; cases e
        | ok t =>
          rw [hp] at e
          dsimp only at e
          cases hq : formatPars col ll (splitNl b) with
          | error f => rw [hq] at e; cases e
          | ok ts =>
            rw [hq] at e
            cases e
            have := (ih (joinLines col ts)).1 (by rw [hq])
            rw [joinLines_intercalate] at this
            have hts : ts ≠ [] := by
              rintro rfl
              cases hb : splitNl b with
              | nil => exact hne hb
              | cons p ps =>
                rw [hb, formatPars] at hq
                cases hp : formatParagraph p col ll with
                | error f => rw [hp] at hq; cases hq
                | ok t =>
                  rw [hp] at hq
                  dsimp only at hq
                  cases hps : formatPars col ll ps with
                  | error f => rw [hps] at hq; cases hq
                  | ok ts => rw [hps] at hq; cases hq
            cases ts with
            | nil => exact absurd rfl hts
            | cons t' ts =>
              have := Paragraphs.cons h ((paragraph_exact a t col ll).1 hp).2 this
              rw [joinLines.eq_3 _ _ _ (by simp), joinLines_intercalate]
              simpa [newLine, spaces] using this
      · intro e
        generalize hs' : a ++ '\n' :: b = s' at e
        cases e with
        | one h' => subst hs'; simp at h'
        | @cons s1 o1 s2 o2 h' hp ht =>
          obtain ⟨rfl, rfl⟩ := sep_unique h h' hs'
          rw [(paragraph_exact a o1 col ll).2 ⟨hc, hp⟩]
          dsimp only
          have := (ih o2).2 ht
          cases hq : formatPars col ll (splitNl b) with
          | error f => rw [hq] at this; cases this
          | ok ts =>
            rw [hq] at this
            cases this
            have hts : ts ≠ [] := by
              rintro rfl
              cases hb : splitNl b with
              | nil => exact hne hb
              | cons p ps =>
                rw [hb, formatPars] at hq
                cases hp : formatParagraph p col ll with
                | error f => rw [hp] at hq; cases hq
                | ok t =>
                  rw [hp] at hq
                  dsimp only at hq
                  cases hps : formatPars col ll ps with
                  | error f => rw [hps] at hq; cases hq
                  | ok ts => rw [hps] at hq; cases hq
            cases ts with
            | nil => exact absurd rfl hts
            | cons t' ts =>
              dsimp only
              rw [joinLines.eq_3 _ _ _ (by simp)]
              simp [newLine, spaces]

/-! ### Entries -/

theorem left_exact (d : OptionDesc) (s : Str) : d.leftColumn = .ok s ↔ Left d s := by
  have named : ∀ n, d.formatName = .ok n ↔ Named d n := by
    intro n
    unfold OptionDesc.formatName
    constructor
    · intro h
      by_cases hs : d.shortName ≠ []
      · rw [if_pos hs] at h
        cases hl : d.longNames with
        | nil => rw [hl] at h; cases h; exact .short hs hl
        | cons m ms => rw [hl] at h; cases h; exact .both hs hl
      · rw [if_neg hs] at h
        have hs : d.shortName = [] := by simpa using hs
        cases hl : d.longNames with
        | nil => rw [hl] at h; cases h
        | cons m ms => rw [hl] at h; cases h; exact .long hs hl
    · intro h
      cases h with
      | short h hl => rw [if_pos h, hl]
      | both h hl => rw [if_pos h, hl]
      | long h hl => rw [if_neg (by simp [h]), hl]
  unfold OptionDesc.leftColumn OptionDesc.formatParameter
  constructor
  · intro h
    cases hn : d.formatName with
    | error f => rw [hn] at h; cases h
    | ok n =>
      rw [hn] at h
      have hn := (named n).1 hn
      by_cases hm : d.semantic.maxTokens ≠ 0
      · rw [if_pos hm] at h; cases h; exact .value hn hm
      · rw [if_neg hm] at h
        have hm : d.semantic.maxTokens = 0 := by simpa using hm
        injection h with h
        rw [List.append_nil] at h
        subst h
        exact .switch hn hm
  · intro h
    cases h with
    | switch hn hm => rw [(named _).2 hn, if_neg (by simp [hm])]; simp
    | value hn hm => rw [(named _).2 hn, if_pos hm]

theorem description_exact (desc out : Str) (col ll : Nat) :
    formatDescription desc col ll = .ok out ↔ col + 1 < ll ∧ Paragraphs col (ll - 1 - col) desc out := by
  unfold formatDescription
  by_cases h1 : ll > 1
  · rw [if_pos h1]
    by_cases h2 : ll - 1 > col
    · rw [if_pos h2]
      refine (formatPars_paragraphs h2 _ desc (Nat.le_refl _) out).trans ?_
      constructor
      · intro h; exact ⟨by omega, h⟩
      · intro h; exact h.2
    · rw [if_neg h2]
      constructor
      · intro h; cases h
      · rintro ⟨h, -⟩; omega
  · rw [if_neg h1]
    constructor
    · intro h; cases h
    · rintro ⟨h, -⟩; omega

theorem entry_exact (d : OptionDesc) (out : Str) (col ll : Nat) : formatOne d col ll = .ok out ↔ Entry col ll d out := by
  unfold formatOne
  constructor
  · intro h
    cases hl : d.leftColumn with
    | error f => rw [hl] at h; cases h
    | ok left =>
      rw [hl] at h
      have hl := (left_exact d left).1 hl
      dsimp only at h
      by_cases hd : d.description = []
      · rw [if_pos hd] at h; cases h; exact .bare hl hd
      · rw [if_neg hd] at h
        cases ht : formatDescription d.description col ll with
        | error f => rw [ht] at h; cases h
        | ok t =>
          obtain ⟨h1, h2⟩ := (description_exact _ _ _ _).1 ht
          rw [ht] at h
          dsimp only at h
          injection h with h
          subst h
          by_cases hc : left.length ≥ col
          · rw [if_pos hc]; exact .below hl hd hc h1 h2
          · rw [if_neg hc]; exact .beside hl hd (by omega) h1 h2
  · intro h
    cases h with
    | bare hl hd => rw [(left_exact _ _).2 hl]; dsimp only; rw [if_pos hd]
    | beside hl hd hc hw ht =>
      rw [(left_exact _ _).2 hl]
      dsimp only
      rw [if_neg hd, (description_exact _ _ _ _).2 ⟨hw, ht⟩]
      dsimp only
      rw [if_neg (by omega)]
      rfl
    | below hl hd hc hw ht =>
      rw [(left_exact _ _).2 hl]
      dsimp only
      rw [if_neg hd, (description_exact _ _ _ _).2 ⟨hw, ht⟩]
      dsimp only
      rw [if_pos hc]
      rfl

theorem text_exact (col : Nat) (ps : List Piece) (out : Str) : piecesText col ps = .ok out ↔ Text col ps out := by
  have piece : ∀ p out, Piece.text col p = .ok out ↔ PieceText col p out := by
    intro p out
    cases p with
    | caption c =>
      constructor
      · intro h; cases h; exact .caption c
      · intro h; cases h; rfl
    | blank =>
      constructor
      · intro h; cases h; exact .blank
      · intro h; cases h; rfl
    | entry d ll =>
      rw [Piece.text]
      constructor
      · intro h
        cases hf : formatOne d col ll with
        | error f => rw [hf] at h; cases h
        | ok t => rw [hf] at h; cases h; exact .entry ((entry_exact _ _ _ _).1 hf)
      · intro h
        cases h with
        | entry h => rw [(entry_exact _ _ _ _).2 h]
  induction ps generalizing out with
  | nil =>
    constructor
    · intro h; cases h; exact .nil
    · intro h; cases h; rfl
  | cons p ps ih =>
    rw [piecesText]
    constructor
    · intro h
      cases hp : p.text col with
      | error f => rw [hp] at h; cases h
      | ok t =>
        rw [hp] at h
        dsimp only at h
        cases hps : piecesText col ps with
        | error f => rw [hps] at h; cases h
        | ok ts => rw [hps] at h; cases h; exact .cons ((piece _ _).1 hp) ((ih _).1 hps)
    · intro h
      cases h with
      | cons hp ht => rw [(piece _ _).2 hp, (ih _).2 ht]

/-! ### The column -/

theorem largest_cons (x : Nat) (l : List Nat) (b : Nat) : Largest (x :: l) b ↔ b = l.foldl max x := by
  induction l generalizing x with
  | nil => simp [Largest]; omega
  | cons y l ih =>
    rw [List.foldl_cons, ← ih]
    unfold Largest
    simp only [List.mem_cons, forall_eq_or_imp]
    constructor
    · rintro ⟨h1, h2, h3, h4⟩
      refine ⟨?_, by omega, h4⟩
      rcases h1 with h1 | h1 | h1
      · left; omega
      · left; omega
      · exact .inr h1
    · rintro ⟨h1, h2, h3⟩
      refine ⟨?_, by omega, by omega, h3⟩
      rcases h1 with h1 | h1
      · by_cases h : x ≤ y
        · right; left; omega
        · left; omega
      · exact .inr (.inr h1)

theorem maxLeft_exact (ds : List OptionDesc) (b w : Nat) : maxLeft ds b = .ok w ↔ ∃ ws, Lefts ds ws ∧ w = ws.foldl max b := by
  induction ds generalizing b with
  | nil =>
    constructor
    · intro h; cases h; exact ⟨[], .nil, rfl⟩
    · rintro ⟨ws, h, e⟩; cases h; rw [e]; rfl
  | cons d ds ih =>
    rw [maxLeft]
    constructor
    · intro h
      cases hl : d.leftColumn with
      | error f => rw [hl] at h; cases h
      | ok s =>
        rw [hl] at h
        obtain ⟨ws, h1, h2⟩ := (ih _).1 h
        exact ⟨_, .cons ((left_exact _ _).1 hl) h1, h2⟩
    · rintro ⟨ws, h, e⟩
      cases h with
      | cons h t =>
        rw [(left_exact _ _).2 h]
        exact (ih _).2 ⟨_, t, e⟩

theorem groupsWidth_append (gs hs : List OptionsDesc) (b : Nat) :
    groupsWidth (gs ++ hs) b = match groupsWidth gs b with
      | .error f => .error f
      | .ok w => groupsWidth hs w := by
  induction gs generalizing b with
  | nil => rw [List.nil_append, groupsWidth]
  | cons g gs ih =>
    rw [List.cons_append, groupsWidth, groupsWidth]
    cases columnWidth g with
    | error f => rfl
    | ok w => exact ih _

/-- What adding the items does to the column. -/
structure AddedColumn (items : Items) (o o' : OptionsDesc) : Prop where
  lineLength : o'.lineLength = o.lineLength
  minDescLen : o'.minDescLen = o.minDescLen
  options : o'.options = o.options ++ items.declared
  groups : ∃ gs, o'.groups = o.groups ++ gs ∧ ∀ b w, groupsWidth gs b = .ok w ↔ ∃ ws, Columns items ws ∧ w = ws.foldl max b

mutual
theorem Tree.column_exact (t : Tree) (o : OptionsDesc) (h : t.build = .ok o) (w : Nat) : columnWidth o = .ok w ↔ Column t w := by
  cases t with
  | mk caption ll md items =>
    rw [Tree.build] at h
    unfold OptionsDesc.make at h
    split at h
    · cases h
    · rename_i o0 he
      have h0 : o0 = { caption, lineLength := ll, minDescLen := md, options := [], belong := [], groups := [] } ∧
          md < if ll = 0 then uintMax else ll - 1 := by
        by_cases hm : md < (if ll = 0 then uintMax else ll - 1)
        · rw [if_pos hm] at he; cases he; exact ⟨rfl, hm⟩
        · rw [if_neg hm] at he; cases he
      obtain ⟨h0, hlt⟩ := h0
      subst h0
      obtain ⟨c1, c2, c3, gs, c4, c5⟩ := Items.column_exact items _ o h
      obtain ⟨oc, oll, omd, oopts, obel, ogrp⟩ := o
      simp only [List.nil_append] at c1 c2 c3 c4
      subst c1 c2 c3 c4
      rw [columnWidth]
      constructor
      · intro h
        cases h1 : maxLeft items.declared 23 with
        | error f => rw [h1] at h; cases h
        | ok w1 =>
          rw [h1] at h
          dsimp only at h
          cases h2 : groupsWidth ogrp w1 with
          | error f => rw [h2] at h; cases h
          | ok w2 =>
            rw [h2] at h
            dsimp only at h
            obtain ⟨lefts, a1, a2⟩ := (maxLeft_exact _ _ _).1 h1
            obtain ⟨ws, b1, b2⟩ := (c5 _ _).1 h2
            have hb : Largest (23 :: lefts ++ ws) w2 := by
              rw [List.cons_append, largest_cons, List.foldl_append, ← a2]
              exact b2
            by_cases hm : omd + 1 ≤ oll
            · rw [if_pos hm] at h
              cases h
              exact .mk a1 b1 hb (.inl ⟨by omega, rfl⟩)
            · rw [if_neg hm] at h
              by_cases hz : oll = 0
              · rw [if_pos hz] at h
                cases h
                exact .mk a1 b1 hb (.inr ⟨hz, rfl⟩)
              · rw [if_neg hz] at h; cases h
      · intro h
        cases h with
        | @mk _ _ _ _ lefts groups b room hl hg hb hm =>
          rw [List.cons_append, largest_cons, List.foldl_append] at hb
          rw [(maxLeft_exact _ _ _).2 ⟨lefts, hl, rfl⟩]
          dsimp only
          rw [(c5 _ _).2 ⟨groups, hg, hb⟩]
          dsimp only
          rcases hm with ⟨hz, rfl⟩ | ⟨hz, rfl⟩
          · rw [if_neg hz] at hlt
            rw [if_pos (by omega)]
          · rw [if_neg (by omega), if_pos hz]
            rfl

theorem Items.column_exact (items : Items) (o o' : OptionsDesc) (h : items.addTo o = .ok o') : AddedColumn items o o' := by
  cases items with
  | nil =>
    rw [Items.addTo] at h
    cases h
    refine ⟨rfl, rfl, by simp [Items.declared], [], by simp, ?_⟩
    intro b w
    rw [groupsWidth]
    constructor
    · intro h; cases h; exact ⟨[], .nil, rfl⟩
    · rintro ⟨ws, h, e⟩; cases h; rw [e]; rfl
  | opt d rest =>
    rw [Items.addTo] at h
    obtain ⟨c1, c2, c3, gs, c4, c5⟩ := Items.column_exact rest _ o' h
    refine ⟨c1, c2, by rw [c3]; simp [OptionsDesc.addOption, Items.declared], gs, c4, ?_⟩
    intro b w
    rw [c5]
    constructor
    · rintro ⟨ws, h, e⟩; exact ⟨ws, .opt h, e⟩
    · rintro ⟨ws, h, e⟩
      cases h with
      | opt h => exact ⟨ws, h, e⟩
  | group t rest =>
    rw [Items.addTo] at h
    cases ht : t.build with
    | error f => rw [ht] at h; cases h
    | ok g =>
      rw [ht] at h
      dsimp only at h
      have p1 := Tree.column_exact t g ht
      have p2 := (Tree.build_spec 1 t g ht).2
      obtain ⟨c1, c2, c3, gs, c4, c5⟩ := Items.column_exact rest _ o' h
      refine ⟨c1, c2, by rw [c3]; simp [OptionsDesc.addGroup, Items.declared, p2], g :: gs, by rw [c4]; simp [OptionsDesc.addGroup], ?_⟩
      intro b w
      rw [groupsWidth]
      constructor
      · intro h
        cases hg : columnWidth g with
        | error f => rw [hg] at h; cases h
        | ok wg =>
          rw [hg] at h
          obtain ⟨ws, h1, h2⟩ := (c5 _ _).1 h
          exact ⟨wg :: ws, .group ((p1 wg).1 hg) h1, h2⟩
      · rintro ⟨ws, h, e⟩
        cases h with
        | group h hr =>
          rw [(p1 _).2 h]
          exact (c5 _ _).2 ⟨_, hr, e⟩
end

/-- **C81.** The help of a group of options, character by character: it is printed as `text` with the given column for the descriptions
exactly if `Text` derives it; and without a given column exactly if `Column` gives the column. -/
theorem C81_help (t : Tree) (o : OptionsDesc) (h : t.build = .ok o) (text : Str) :
    (∀ width, width ≠ 0 → (o.print width = .ok text ↔ Text width t.layout text)) ∧
    (o.print = .ok text ↔ ∃ w, Column t w ∧ Text w t.layout text) := by
  constructor
  · intro width hw
    rw [(C52_layout t o h width).1 hw, text_exact]
  · constructor
    · intro hp
      cases hc : columnWidth o with
      | error f => rw [OptionsDesc.print, if_pos rfl, hc] at hp; cases hp
      | ok w => exact ⟨w, (t.column_exact o h w).1 hc, by rw [(C52_layout t o h 0).2 w hc, text_exact] at hp; exact hp⟩
    · rintro ⟨w, hc, ht⟩
      rw [(C52_layout t o h 0).2 w ((t.column_exact o h w).2 hc), text_exact]
      exact ht

/-- The name of a typed value in the help is the one that `Shown` derives. -/
theorem C81_parameter (env : Env) (t : TypedValue) (s : Str) : (t.toSemantic env).name = s ↔ Shown t s := by
  show t.name = s ↔ _
  unfold TypedValue.name
  constructor
  · rintro rfl
    cases hi : t.implicit with
    | none =>
      cases hd : t.dflt with
      | none => exact .plain (by simp [hi]) (by simp [hd])
      | some p =>
        obtain ⟨v, s⟩ := p
        by_cases hs : s = []
        · subst hs
          exact .plain (by simp [hi]) (by simp [hd])
        · simp only [hs, ne_eq, not_false_eq_true, not_true_eq_false, if_true, if_false]
          exact .dflt (by simp [hi]) hd hs
    | some p =>
      obtain ⟨v, s⟩ := p
      by_cases hs : s = []
      · subst hs
        cases hd : t.dflt with
        | none => exact .plain (by simp [hi]) (by simp [hd])
        | some p =>
          obtain ⟨v', s'⟩ := p
          by_cases hs : s' = []
          · subst hs
            exact .plain (by simp [hi]) (by simp [hd])
          · simp only [hs, ne_eq, not_false_eq_true, not_true_eq_false, if_true, if_false]
            exact .dflt (by simp [hi]) hd hs
      · cases hd : t.dflt with
        | none =>
          simp only [hs, ne_eq, not_false_eq_true, not_true_eq_false, if_true, if_false]
          exact .implicit hi hs (by simp [hd])
        | some p =>
          obtain ⟨v', s'⟩ := p
          by_cases hs' : s' = []
          · subst hs'
            simp only [hs, ne_eq, not_false_eq_true, not_true_eq_false, if_true, if_false]
            exact .implicit hi hs (by simp [hd])
          · simp only [hs, hs', ne_eq, not_false_eq_true, if_true]
            have := Shown.both hi hs hd hs'
            simpa using this
  · intro h
    have empty : ∀ x : Option (AVal × Str), (∀ v s, x = some (v, s) → s = []) → x = none ∨ ∃ v, x = some (v, []) := by
      intro x hx
      cases x with
      | none => exact .inl rfl
      | some p => exact .inr ⟨p.1, by rw [← hx p.1 p.2 rfl]⟩
    cases h with
    | plain hi hd =>
      rcases empty _ hi with h1 | ⟨v, h1⟩ <;> rcases empty _ hd with h2 | ⟨v', h2⟩ <;> simp [h1, h2]
    | @dflt v s hi hd hs =>
      rcases empty _ hi with h1 | ⟨v, h1⟩ <;> simp [h1, hd, hs]
    | @implicit v s hi hs hd =>
      rcases empty _ hd with h2 | ⟨v', h2⟩ <;> simp [hi, h2, hs]
    | both hi hs hd hs' => simp [hi, hs, hd, hs']

/-! ### When printing succeeds -/

theorem infix_cut {s s' pre par post : Str} (h : s ++ '\n' :: s' = pre ++ par ++ post) (hp : '\n' ∉ par) :
    (∃ pre' post', s = pre' ++ par ++ post') ∨ ∃ pre' post', s' = pre' ++ par ++ post' := by
  rw [List.append_assoc] at h
  rcases List.append_eq_append_iff.1 h with ⟨a, h1, h2⟩ | ⟨a, h1, h2⟩
  · cases a with
    | nil =>
      cases par with
      | nil => exact .inr ⟨[], s', by simp⟩
      | cons x par => simp only [List.nil_append, List.cons_append, List.cons.injEq] at h2; simp at hp; exact absurd h2.1 hp.1
    | cons x a =>
      simp only [List.cons_append, List.cons.injEq] at h2
      exact .inr ⟨a, post, by rw [h2.2]; simp⟩
  · rcases List.append_eq_append_iff.1 h2 with ⟨b, h3, h4⟩ | ⟨b, h3, h4⟩
    · exact .inl ⟨pre, b, by rw [h1, h3]; simp⟩
    · cases b with
      | nil => exact .inl ⟨pre, [], by rw [h1, h3]; simp⟩
      | cons x b =>
        simp only [List.cons_append, List.cons.injEq] at h4
        rw [h3] at hp
        simp at hp
        exact absurd h4.1 hp.2.1

theorem tabColumn_append {x : Str} (hx : '\t' ∉ x) (y : Str) : tabColumn (x ++ '\t' :: y) = x.length := by
  unfold tabColumn
  rw [if_pos (by simp)]
  induction x with
  | nil => simp
  | cons c x ih =>
    simp only [List.mem_cons, not_or] at hx
    rw [List.cons_append, List.idxOf_cons, show (c == '\t') = false by simpa using Ne.symm hx.1]
    simp [ih hx.2]

theorem paragraph_tabs {col n : Nat} {s out : Str} (h : Paragraph col n s out) : TabsOk n s := by
  intro pre par post e _
  cases h with
  | plain h _ =>
    have : '\t' ∉ par := fun hm => h (by rw [e]; simp [hm])
    exact ⟨by rw [List.count_eq_zero.2 this]; omega, fun hm => absurd hm this⟩
  | @tab a b ls ha hb hn _ =>
    constructor
    · have h1 : (a ++ '\t' :: b).count '\t' = 1 := by
        rw [List.count_append, List.count_cons_self, List.count_eq_zero.2 ha, List.count_eq_zero.2 hb]
      rw [e, List.count_append, List.count_append] at h1
      omega
    · intro hm
      obtain ⟨x, y, rfl⟩ := List.mem_iff_append.1 hm
      have hx : '\t' ∉ pre ++ x := by
        intro hx
        have h1 : (a ++ '\t' :: b).count '\t' = 1 := by
          rw [List.count_append, List.count_cons_self, List.count_eq_zero.2 ha, List.count_eq_zero.2 hb]
        rw [e, show pre ++ (x ++ '\t' :: y) ++ post = (pre ++ x) ++ '\t' :: (y ++ post) by simp, List.count_append, List.count_cons_self] at h1
        have := List.count_pos_iff.2 hx
        omega
      have hcut := sep_unique ha hx (b := b) (b' := y ++ post) (by rw [e]; simp)
      have hx' : '\t' ∉ x := fun h => hx (by simp [h])
      rw [tabColumn_append hx' y]
      have hlen := congrArg List.length hcut.1
      rw [List.length_append] at hlen
      omega

theorem paragraphs_tabs {col n : Nat} {s out : Str} (h : Paragraphs col n s out) : TabsOk n s := by
  induction h with
  | one h hp => exact paragraph_tabs hp
  | cons h hp t ih =>
    intro pre par post e hn
    rcases infix_cut e hn with ⟨p, q, e⟩ | ⟨p, q, e⟩
    · exact paragraph_tabs hp p par q e hn
    · exact ih p par q e hn

theorem entry_exists (d : OptionDesc) (col ll : Nat) : (∃ out, Entry col ll d out) ↔
    (d.shortName ≠ [] ∨ d.longNames ≠ []) ∧ (d.description = [] ∨ col + 1 < ll ∧ TabsOk (ll - 1 - col) d.description) := by
  constructor
  · rintro ⟨out, h⟩
    have hl : ∀ left, Left d left → d.shortName ≠ [] ∨ d.longNames ≠ [] := by
      intro left h
      have : ∀ n, Named d n → d.shortName ≠ [] ∨ d.longNames ≠ [] := by
        intro n h
        cases h with
        | short h => exact .inl h
        | both h => exact .inl h
        | long _ h => exact .inr (by simp [h])
      cases h with
      | switch h => exact this _ h
      | value h => exact this _ h
    cases h with
    | bare h hd => exact ⟨hl _ h, .inl hd⟩
    | beside h hd hc hw ht => exact ⟨hl _ h, .inr ⟨hw, paragraphs_tabs ht⟩⟩
    | below h hd hc hw ht => exact ⟨hl _ h, .inr ⟨hw, paragraphs_tabs ht⟩⟩
  · rintro ⟨hn, hd⟩
    obtain ⟨left, hl⟩ := leftColumn_ok d hn
    have hl := (left_exact _ _).1 hl
    by_cases he : d.description = []
    · exact ⟨_, .bare hl he⟩
    · rcases hd with hd | ⟨hw, ht⟩
      · exact absurd hd he
      · obtain ⟨t, e⟩ := formatDescription_ok d.description col ll hw ht
        have e := ((description_exact _ _ _ _).1 e).2
        by_cases hc : left.length < col
        · exact ⟨_, .beside hl he hc hw e⟩
        · exact ⟨_, .below hl he (by omega) hw e⟩

theorem text_exists (col : Nat) (ps : List Piece) : (∃ out, Text col ps out) ↔ ∀ d ll, .entry d ll ∈ ps → ∃ out, Entry col ll d out := by
  induction ps with
  | nil =>
    constructor
    · intro _ d ll h; cases h
    · intro _; exact ⟨_, .nil⟩
  | cons p ps ih =>
    constructor
    · rintro ⟨out, h⟩ d ll hm
      cases h with
      | cons hp ht =>
        rcases List.mem_cons.1 hm with rfl | hm
        · cases hp with
          | entry h => exact ⟨_, h⟩
        · exact ih.1 ⟨_, ht⟩ d ll hm
    · intro h
      obtain ⟨out, ht⟩ := ih.2 fun d ll hm => h d ll (by simp [hm])
      cases p with
      | caption c => exact ⟨_, .cons (.caption c) ht⟩
      | blank => exact ⟨_, .cons .blank ht⟩
      | entry d ll =>
        obtain ⟨o, ho⟩ := h d ll (by simp)
        exact ⟨_, .cons (.entry ho) ht⟩

/-- **C55, exactly.** Printing with a given column succeeds iff every option has a name, and every description that is not empty has room to
the right of that column and at most one tab per paragraph, and that within this room; without a given column, iff this is so for the column
computed from the left columns. -/
theorem C55_printable_iff (t : Tree) (o : OptionsDesc) (h : t.build = .ok o) :
    (∀ width, width ≠ 0 → ((∃ text, o.print width = .ok text) ↔ ∀ d ll, .entry d ll ∈ t.layout →
      (d.shortName ≠ [] ∨ d.longNames ≠ []) ∧ (d.description = [] ∨ width + 1 < ll ∧ TabsOk (ll - 1 - width) d.description))) ∧
    ((∃ text, o.print = .ok text) ↔ ∃ w, Column t w ∧ ∀ d ll, .entry d ll ∈ t.layout →
      (d.shortName ≠ [] ∨ d.longNames ≠ []) ∧ (d.description = [] ∨ w + 1 < ll ∧ TabsOk (ll - 1 - w) d.description)) := by
  simp only [← entry_exists, ← text_exists]
  constructor
  · intro width hw
    exact exists_congr fun text => (C81_help t o h text).1 width hw
  · constructor
    · rintro ⟨text, hp⟩
      obtain ⟨w, h1, h2⟩ := (C81_help t o h text).2.1 hp
      exact ⟨w, h1, text, h2⟩
    · rintro ⟨w, h1, text, h2⟩
      exact ⟨text, (C81_help t o h text).2.2 ⟨w, h1, h2⟩⟩

/-- The group `O` with one option, and in it the group `I` with another. -/
def helpExample : Tree :=
  .mk (Test.L "O") 80 40 (.opt (Test.od "a" Test.unt "x y") (.group (.mk (Test.L "I") 80 40 (.opt (Test.od "bb" Test.unt) .nil)) .nil))

/-- A group inside moves the descriptions one column to the right. -/
example : Column helpExample 25 ∧ Column (.mk [] 80 40 .nil) 24 := by
  constructor
  · exact (helpExample.column_exact _ rfl 25).1 rfl
  · exact Column.mk (ll := 80) (md := 40) (items := .nil) (lefts := []) (groups := []) (b := 23) (room := 39) .nil .nil ⟨by simp, by simp⟩ (by decide)

/-- The line length 0 is accepted by the constructor, and works as long as there are no descriptions. -/
example : ∃ o, Tree.build (.mk [] 0 40 (.opt (Test.od "a" Test.unt) .nil)) = .ok o ∧ o.print = .ok (Test.L "  --a " ++ ['\n']) := ⟨_, rfl, rfl⟩

example : Text 25 helpExample.layout (Test.L "O:" ++ '\n' :: (Test.L "  --a                    x y" ++ '\n' :: '\n' :: (Test.L "I:" ++ '\n' :: (Test.L "  --bb " ++ ['\n'])))) :=
  (text_exact _ _ _).1 rfl

/-- Ten columns: the second word does not fit and is moved; the third is longer than half a line and is cut. -/
example : Lines 10 10 (Test.L "aaaaaa bbb ccccccccccccc") [Test.L "aaaaaa bbb", Test.L "cccccccccc", Test.L "ccc"] :=
  (lines_exact (by decide) (by decide) _ _).1 rfl

example (env : Env) : Shown { type := .scalar .bool, valueName := Test.L "n", implicit := some (.scalar (.bool true), Test.L "true") } (Test.L "[=n(=true)]") :=
  (C81_parameter env _ _).1 rfl

end PO
