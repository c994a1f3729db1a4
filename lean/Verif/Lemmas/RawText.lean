import Verif.Lemmas.Raw
import Verif.Props.Format
/-
The statement-by-statement model is the other one (texts).
-/
namespace PO.Raw

theorem findFirstNotOf_none {s : Str} {p : Char → Bool} : findFirstNotOf s p = none ↔ s.dropWhile p = [] := by
  unfold findFirstNotOf
  induction s with
  | nil => simp
  | cons x xs ih =>
    rw [List.findIdx?_cons]
    by_cases hx : p x = true
    · simp only [hx, Bool.not_true, Bool.false_eq_true, if_false, Option.map_eq_none_iff, ih, List.dropWhile_cons_of_pos]
    · simp [hx]

theorem findFirstNotOf_some {s : Str} {p : Char → Bool} {i : Nat} (h : findFirstNotOf s p = some i) :
    i < s.length ∧ s.drop i = s.dropWhile p ∧ s.dropWhile p ≠ [] := by
  induction s generalizing i with
  | nil => simp [findFirstNotOf] at h
  | cons x xs ih =>
    unfold findFirstNotOf at h
    rw [List.findIdx?_cons] at h
    by_cases hx : p x = true
    · simp only [hx, Bool.not_true, Bool.false_eq_true, if_false] at h
      rw [Option.map_eq_some_iff] at h
      obtain ⟨j, hj, rfl⟩ := h
      obtain ⟨h1, h2, h3⟩ := ih hj
      refine ⟨by simpa using h1, ?_, ?_⟩
      · rw [List.drop_succ_cons, h2, List.dropWhile_cons_of_pos hx]
      · rw [List.dropWhile_cons_of_pos hx]; exact h3
    · simp only [hx, Bool.not_false, if_true] at h
      cases h
      refine ⟨by simp, ?_, ?_⟩
      · rw [List.dropWhile_cons_of_neg hx, List.drop_zero]
      · rw [List.dropWhile_cons_of_neg hx]; simp

theorem stripPrefixes_eq (s : Str) : stripPrefixes s = .ok (PO.stripPrefixes s) := by
  unfold stripPrefixes PO.stripPrefixes
  cases h : findFirstNotOf s (fun c => c == '-' || c == '/') with
  | none => rw [findFirstNotOf_none.1 h]
  | some i =>
    obtain ⟨h1, h2, h3⟩ := findFirstNotOf_some h
    dsimp only
    rw [substrFrom_le (by omega), h2]
    split
    · rename_i h4; exact absurd h4 h3
    · rfl

/-- Both keys read by `get_canonical_option_name` are there. -/
def HasKeys (e : OptErr) : Prop :=
  (SMap.get? e.subst (str% "option")).isSome ∧ (SMap.get? e.subst (str% "original_token")).isSome

theorem canonicalName_eq {e : OptErr} (h : HasKeys e) : canonicalName e = .ok e.canonicalName := by
  obtain ⟨h1, h2⟩ := h
  obtain ⟨o, ho⟩ := Option.isSome_iff_exists.1 h1
  obtain ⟨t, ht⟩ := Option.isSome_iff_exists.1 h2
  unfold canonicalName OptErr.canonicalName substOf OptErr.substD
  rw [ho, ht]
  simp only [bind_ok, stripPrefixes_eq, Option.getD_some]
  by_cases h0 : o = []
  · simp [h0]
  · rw [if_neg (by simpa using h0), if_neg h0]
    by_cases hs : e.style = Style.allowLong ∨ e.style = Style.allowLongDisguise
    · rw [if_pos hs, if_pos hs]; rfl
    · rw [if_neg hs, if_neg hs]
      cases hp : PO.stripPrefixes t with
      | nil => simp
      | cons c r =>
        by_cases hz : e.style = 0
        · simp [hz]
        · simp [hz]

theorem findSub_le {s p : Str} {i : Nat} (h : findSub s p = some i) : i ≤ s.length := by
  induction s generalizing i with
  | nil => unfold findSub at h; split at h <;> cases h; simp
  | cons x xs ih =>
    unfold findSub at h
    split at h
    · cases h; simp
    · rw [Option.map_eq_some_iff] at h
      obtain ⟨j, hj, rfl⟩ := h
      have := ih hj
      simp only [List.length_cons]; omega

theorem replaceToken_eq (fuel : Nat) (msg src dst : Str) :
    replaceToken fuel msg src dst = .ok (PO.replaceToken fuel msg src dst) := by
  induction fuel generalizing msg with
  | zero => unfold replaceToken PO.replaceToken; cases findSub msg src <;> rfl
  | succ fuel ih =>
    unfold replaceToken PO.replaceToken
    cases h : findSub msg src with
    | none => rfl
    | some pos =>
      simp only [replace, if_pos (findSub_le h), ih]

theorem alternativesFrom_eq (v : List Str) (hv : v ≠ []) (i : Nat) (t : Str) :
    alternativesFrom v i t =
      .ok ((v.dropLast.drop i).foldl (fun t a => t ++ str% "'%prefix%" ++ a ++ str% "', ") t) := by
  have hl : 1 ≤ v.length := by cases v with | nil => exact absurd rfl hv | cons => simp
  generalize hn : v.length - i = n
  induction n generalizing i t with
  | zero =>
    rw [alternativesFrom.eq_def]
    split
    · rename_i h; rw [sub_le hl] at h; cases h
    · rename_i m h
      rw [sub_le hl] at h; cases h
      rw [if_neg (by omega), List.drop_eq_nil_of_le (by simp; omega)]; rfl
  | succ n ih =>
    rw [alternativesFrom.eq_def]
    split
    · rename_i h; rw [sub_le hl] at h; cases h
    · rename_i m h
      rw [sub_le hl] at h; cases h
      by_cases hi : i < v.length - 1
      · rw [if_pos hi, get_lt (by omega)]
        dsimp only
        rw [ih (i + 1) _ (by omega), List.drop_eq_getElem_cons (show i < v.dropLast.length by simpa using hi)]
        simp
      · rw [if_neg hi, List.drop_eq_nil_of_le (by simp; omega)]; rfl

/-- The template is built exactly when there is an alternative; otherwise `back()` is called on an empty vector. -/
theorem ambiguousTemplate_eq (alts : List Str) (template : Str) :
    ambiguousTemplate alts template =
      match PO.ambiguousTemplate alts template with
      | some t => .ok t
      | none => .error (.oob .index) := by
  unfold ambiguousTemplate PO.ambiguousTemplate
  dsimp only
  generalize SSet.insertAll [] alts = v
  by_cases hv : v = []
  · subst hv; simp [back]
  · have hr : v.reverse = v.getLast hv :: v.dropLast.reverse := by
      conv => lhs; rw [← List.dropLast_concat_getLast hv]
      simp
    rw [hr, back_cons hv]
    dsimp only
    by_cases h1 : v.length > 1
    · rw [if_pos h1, if_pos h1, alternativesFrom_eq v hv]
      simp
    · rw [if_neg h1, if_neg h1]
      simp

theorem dropWhile_last {p : Char → Bool} (s : Str) : ∀ {x : Char} {r : Str}, s.dropWhile p = x :: r → p x = false := by
  induction s with
  | nil => intro x r h; cases h
  | cons y ys ih =>
    intro x r h
    by_cases hy : p y = true
    · rw [List.dropWhile_cons_of_pos hy] at h; exact ih h
    · rw [List.dropWhile_cons_of_neg hy] at h; injection h with h1; rw [← h1]; simpa using hy

/-- Trimming the end of a text whose first character is kept. -/
theorem findLastNotOf_some {s : Str} {p : Char → Bool} {n : Nat} (h : findLastNotOf s p = some n) :
    n < s.length ∧ s.take (n + 1) = (s.reverse.dropWhile p).reverse ∧ s.reverse.dropWhile p ≠ [] := by
  unfold findLastNotOf at h
  rw [Option.map_eq_some_iff] at h
  obtain ⟨i, hi, rfl⟩ := h
  obtain ⟨h1, h2, h3⟩ := findFirstNotOf_some (s := s.reverse) (p := p) (i := i) hi
  rw [List.length_reverse] at h1
  refine ⟨by omega, ?_, h3⟩
  rw [← h2, List.reverse_drop, List.reverse_reverse, List.length_reverse]
  congr 1
  omega

theorem findLastNotOf_none {s : Str} {p : Char → Bool} (h : findLastNotOf s p = none) : s.reverse.dropWhile p = [] := by
  unfold findLastNotOf at h
  rw [Option.map_eq_none_iff] at h
  exact findFirstNotOf_none.1 h

theorem dropWhile_reverse_append {p : Char → Bool} (a b : Str) (hb : b.reverse.dropWhile p ≠ []) :
    ((a ++ b).reverse.dropWhile p) = b.reverse.dropWhile p ++ a.reverse := by
  rw [List.reverse_append, List.dropWhile_append]
  cases h : b.reverse.dropWhile p with
  | nil => exact absurd h hb
  | cons => simp

theorem trimWs_eq (s : Str) : trimWs s = .ok (PO.trimWs s) := by
  unfold trimWs PO.trimWs
  cases hf : findFirstNotOf s isWs with
  | none => rw [findFirstNotOf_none.1 hf]; rfl
  | some n =>
    obtain ⟨h1, h2, h3⟩ := findFirstNotOf_some hf
    -- the kept part starts with a character that is not blank
    have hne : (s.dropWhile isWs).reverse.dropWhile isWs ≠ [] := by
      cases hd : s.dropWhile isWs with
      | nil => exact absurd hd h3
      | cons x r =>
        have hx := dropWhile_last s hd
        rw [List.reverse_cons, List.dropWhile_append]
        split
        · rw [List.dropWhile_cons_of_neg (by simp [hx])]; simp
        · simp
    have hs : s = s.take n ++ s.dropWhile isWs := by rw [← h2, List.take_append_drop]
    have hrev : s.reverse.dropWhile isWs = (s.dropWhile isWs).reverse.dropWhile isWs ++ (s.take n).reverse := by
      conv => lhs; rw [hs]
      exact dropWhile_reverse_append _ _ hne
    cases hl : findLastNotOf s isWs with
    | none =>
      have := findLastNotOf_none hl
      rw [hrev] at this
      simp at this
      exact absurd this.1 (by simpa using hne)
    | some n2 =>
      obtain ⟨g1, g2, g3⟩ := findLastNotOf_some hl
      rw [hrev, List.reverse_append, List.reverse_reverse] at g2
      have hlen := congrArg List.length g2
      rw [List.length_append, List.length_take, List.length_take] at hlen
      have hpos : 0 < ((s.dropWhile isWs).reverse.dropWhile isWs).reverse.length := by
        rw [List.length_reverse]; exact List.length_pos_iff.2 hne
      dsimp only
      rw [sub_le (by omega), bind_ok, substr_le (by omega), PO.substr]
      congr 1
      have h4 : (s.take (n2 + 1)).drop n = ((s.dropWhile isWs).reverse.dropWhile isWs).reverse := by
        rw [g2, List.drop_append_of_le_length (by simp; omega), List.drop_take]
        simp
      rw [← h4, List.drop_take]
      congr 1
      omega

theorem lowerBound_le (m : SSet) (s : Str) : m.lowerBound s ≤ m.length := by
  induction m with
  | nil => simp [SSet.lowerBound]
  | cons x xs ih => rw [SSet.lowerBound]; split <;> simp <;> omega

theorem deref_lt {α : Type} {v : List α} {i : Nat} (h : i < v.length) : deref v i = .ok v[i] := by simp [deref, h]
theorem prev_pos {i : Nat} (h : i ≠ 0) : prev i = .ok (i - 1) := by simp [prev, h]

theorem allowed_eq (it : ConfigIter) (s : Str) : allowed it s = .ok (it.allowed s) := by
  unfold allowed ConfigIter.allowed
  by_cases hh : it.allowedOptions.has s = true
  · simp [hh]
  · rw [if_neg hh, if_neg hh]
    have hle := lowerBound_le it.allowedPrefixes s
    by_cases hi : it.allowedPrefixes.lowerBound s = 0
    · simp [hi]
    · have hlt : it.allowedPrefixes.lowerBound s - 1 < it.allowedPrefixes.length := by omega
      simp [hi, prev_pos, deref_lt hlt, hlt]

theorem addOption_eq (prefixes : SSet) (name : Str) : addOption prefixes name = of (PO.addOption prefixes name) := by
  unfold addOption PO.addOption
  by_cases hn : name = []
  · subst hn; rfl
  · rw [if_neg hn, back_cons hn, List.getLast?_eq_some_getLast hn]
    simp only [bind_ok]
    by_cases hs : name.getLast hn = '*'
    · rw [if_pos hs, hs]
      have h1 : 1 ≤ name.length := List.length_pos_iff.2 hn
      have hle := lowerBound_le prefixes name.dropLast
      simp only [sub_le h1, bind_ok, ← List.dropLast_eq_take]
      generalize hi : prefixes.lowerBound name.dropLast = i at *
      by_cases h0 : i = 0
      · subst h0
        cases prefixes with
        | nil => rfl
        | cons x xs =>
          have hd : deref (x :: xs) 0 = .ok x := rfl
          simp only [List.length_cons, ne_eq, if_pos (show ¬ 0 = xs.length + 1 by omega), hd, bind_ok, pure_ok, not_true_eq_false,
            if_false, if_true, List.getElem?_cons_zero, Bool.or_false, Option.getD_some]
          cases (findSub x name.dropLast == some 0) <;> rfl
      · have hlt : i - 1 < prefixes.length := by omega
        have hg : prefixes[i - 1]? = some prefixes[i - 1] := List.getElem?_eq_getElem hlt
        by_cases hl : i = prefixes.length
        · have hn1 : prefixes[i]? = none := List.getElem?_eq_none (by omega)
          rw [if_neg (show ¬ i ≠ prefixes.length by simpa using hl), hn1]
          simp only [pure_ok, bind_ok, ne_eq, h0, not_false_eq_true, if_true, if_false, prev_pos h0, deref_lt hlt,
            Bool.false_or, hg, Option.getD_some]
          cases (findSub name.dropLast prefixes[i - 1] == some 0) <;> rfl
        · have hlt2 : i < prefixes.length := by omega
          have hg2 : prefixes[i]? = some prefixes[i] := List.getElem?_eq_getElem hlt2
          simp only [ne_eq, h0, hl, not_false_eq_true, if_true, if_false, pure_ok, bind_ok, prev_pos h0,
            deref_lt hlt, deref_lt hlt2, hg, hg2, Option.getD_some]
          cases (findSub prefixes[i] name.dropLast == some 0) <;>
            cases (findSub name.dropLast prefixes[i - 1] == some 0) <;> rfl
    · rw [if_neg hs]
      split
      · rename_i h; cases h
      · rename_i h; injection h with h; exact absurd h hs
      · rfl

theorem stripLine_eq (s : Str) : stripLine s = .ok (PO.stripLine s) := by
  unfold stripLine PO.stripLine
  cases h : findChar s '#' with
  | none => exact trimWs_eq s
  | some n =>
    simp only [substr_le (Nat.zero_le _), bind_ok, trimWs_eq, PO.substr, List.drop_zero]

theorem findChar_lt {s : Str} {c : Char} {n : Nat} (h : findChar s c = some n) : n < s.length := by
  obtain ⟨u, v, rfl, _, rfl⟩ := findChar_eq_some.1 h
  simp

theorem line_eq (it : ConfigIter) (pre s : Str) : line it pre s = of (it.line pre s) := by
  unfold line ConfigIter.line
  by_cases hs : s = []
  · rw [if_pos hs, if_pos hs]; rfl
  · rw [if_neg hs, if_neg hs, back_cons hs, deref_lt (List.length_pos_iff.2 hs)]
    simp only [bind_ok]
    have hh : s.head? = some (s[0]'(List.length_pos_iff.2 hs)) := by
      rw [List.head?_eq_getElem?, List.getElem?_eq_getElem (List.length_pos_iff.2 hs)]
    rw [List.getLast?_eq_some_getLast hs, hh]
    simp only [Option.some.injEq]
    by_cases hb : s[0]'(List.length_pos_iff.2 hs) = '[' ∧ s.getLast hs = ']'
    · rw [if_pos hb, if_pos hb]
      have h2 : 2 ≤ s.length := by
        match s, hs, hb with
        | [x], _, hb => simp at hb; obtain ⟨rfl, h⟩ := hb; cases h
        | _ :: _ :: _, _, _ => simp
      rw [sub_le h2, bind_ok, substr_le (by omega), bind_ok]
      generalize PO.substr s 1 (s.length - 2) = p
      by_cases hp : p = []
      · subst hp; rfl
      · rw [back_cons hp, List.getLast?_eq_some_getLast hp, bind_ok]
        by_cases hd : p.getLast hp = '.'
        · simp [hd]
        · rw [if_pos hd]
          split
          · rename_i h; cases h
          · rename_i h; injection h with h; exact absurd h hd
          · rfl
    · rw [if_neg hb, if_neg hb]
      cases hf : findChar s '=' with
      | none => rfl
      | some n =>
        have := findChar_lt hf
        simp only [substr_le (Nat.zero_le _), bind_ok, trimWs_eq, PO.substr, List.drop_zero, substrFrom_le (show n + 1 ≤ s.length by omega),
          allowed_eq]
        split <;> rfl

theorem splitEnv_eq (s : Str) : splitEnv s = of (PO.splitEnv s) := by
  unfold splitEnv PO.splitEnv
  cases hf : findChar s '=' with
  | none => rfl
  | some n =>
    have := findChar_lt hf
    simp [substr_le (Nat.zero_le _), substrFrom_le (show n + 1 ≤ s.length by omega), PO.substr]

theorem prefixMapper_eq (pre s : Str) : prefixMapper pre s = .ok (PO.prefixMapper pre s) := by
  unfold prefixMapper PO.prefixMapper
  split
  · rw [lowerFrom_eq]; simp
  · rfl

theorem skipSpaces_eq (input : Str) (fuel i : Nat) (hi : i ≤ input.length) (hf : input.length - i ≤ fuel) :
    ∃ j, skipSpaces input fuel i = .ok j ∧ j ≤ input.length ∧ i ≤ j ∧ input.drop j = (input.drop i).dropWhile isSpace ∧
      (∀ x, input[i]? = some x → isSpace x = true → i < j) := by
  induction fuel generalizing i with
  | zero =>
    have : i = input.length := by omega
    subst this
    refine ⟨input.length, ?_, Nat.le_refl _, Nat.le_refl _, ?_, ?_⟩
    · rw [skipSpaces]; simp
    · simp
    · simp
  | succ fuel ih =>
    rw [skipSpaces]
    by_cases he : i = input.length
    · subst he
      exact ⟨input.length, by simp, Nat.le_refl _, Nat.le_refl _, by simp, by simp⟩
    · rw [if_pos he]
      have hlt : i < input.length := by omega
      rw [deref_lt hlt]
      dsimp only
      by_cases hs : isSpace input[i] = true
      · rw [if_pos hs]
        obtain ⟨j, h1, h2, h3, h4, -⟩ := ih (i + 1) (by omega) (by omega)
        refine ⟨j, h1, h2, by omega, ?_, fun _ _ _ => by omega⟩
        rw [h4, List.drop_eq_getElem_cons hlt, List.dropWhile_cons_of_pos hs]
      · rw [if_neg hs]
        refine ⟨i, rfl, hi, Nat.le_refl _, ?_, ?_⟩
        · rw [List.drop_eq_getElem_cons hlt, List.dropWhile_cons_of_neg hs]
        · intro x hx
          rw [List.getElem?_eq_getElem hlt] at hx
          cases hx
          intro h; exact absurd h hs

/-- What `split_winmain` does after its loop. -/
def winEnd (st : WinState) (result : List Str) : List Str :=
  let current := if st.backslashes ≠ 0 then st.current ++ List.replicate st.backslashes '\\' else st.current
  if current ≠ [] ∨ st.insideQuoted ∨ st.emptyQuote then result ++ [current] else result

theorem winLoop_skip (s : Str) (st : WinState) : winLoop s true st = winLoop (s.dropWhile isSpace) false st := by
  induction s with
  | nil => rfl
  | cons x xs ih =>
    by_cases hx : isSpace x = true
    · rw [List.dropWhile_cons_of_pos hx, ← ih]
      conv => lhs; rw [winLoop]
      simp [hx]
    · rw [List.dropWhile_cons_of_neg hx, winLoop, winLoop]
      simp [hx]

theorem winFrom_eq (input : Str) (fuel i : Nat) (st : WinState) (result : List Str) (hi : i ≤ input.length)
    (hf : input.length - i ≤ fuel) :
    ∃ st' result', winFrom input fuel i st result = .ok (st', result') ∧
      winEnd st' result' = result ++ winLoop (input.drop i) false st := by
  induction fuel generalizing i st result with
  | zero =>
    have : i = input.length := by omega
    subst this
    refine ⟨st, result, by rw [winFrom]; simp, ?_⟩
    rw [List.drop_length, winLoop, winEnd]
    generalize (if st.backslashes ≠ 0 then _ else st.current) = cur
    split <;> simp
  | succ fuel ih =>
    rw [winFrom]
    by_cases he : i = input.length
    · subst he
      refine ⟨st, result, by simp, ?_⟩
      rw [List.drop_length, winLoop, winEnd]
      generalize (if st.backslashes ≠ 0 then _ else st.current) = cur
      split <;> simp
    · rw [if_pos he]
      have hlt : i < input.length := by omega
      rw [deref_lt hlt, List.drop_eq_getElem_cons hlt, winLoop]
      simp only [bind_ok, Bool.false_and, Bool.false_eq_true, if_false]
      by_cases hq : input[i] = '"'
      · rw [if_pos hq, if_pos hq]
        split
        · exact ih (i + 1) _ result (by omega) (by omega)
        · exact ih (i + 1) _ result (by omega) (by omega)
      · rw [if_neg hq, if_neg hq]
        by_cases hb : input[i] = '\\'
        · rw [if_pos hb, if_pos hb]
          exact ih (i + 1) _ result (by omega) (by omega)
        · rw [if_neg hb, if_neg hb]
          by_cases hs : (isSpace input[i] && !st.insideQuoted) = true
          · rw [if_pos hs, if_pos hs]
            obtain ⟨j, h1, h2, h3, h4, h5⟩ := skipSpaces_eq input (input.length + 1) i hi (by omega)
            have hsp : isSpace input[i] = true := by
              rw [Bool.and_eq_true] at hs; exact hs.1
            have hj := h5 input[i] (List.getElem?_eq_getElem hlt) hsp
            rw [h1, bind_ok, prev_pos (by omega), bind_ok, show j - 1 + 1 = j by omega]
            obtain ⟨st', r', e1, e2⟩ := ih j { st with current := [], emptyQuote := false, backslashes := 0 }
              (result ++ [if st.backslashes ≠ 0 then st.current ++ List.replicate st.backslashes '\\' else st.current])
              h2 (by omega)
            refine ⟨st', r', e1, ?_⟩
            rw [e2, winLoop_skip, h4, List.drop_eq_getElem_cons hlt, List.dropWhile_cons_of_pos hsp]
            simp
          · rw [if_neg hs, if_neg hs]
            exact ih (i + 1) _ result (by omega) (by omega)

theorem splitWinmain_eq (input : Str) : splitWinmain input = .ok (PO.splitWinmain input) := by
  unfold splitWinmain PO.splitWinmain
  obtain ⟨i, h1, h2, h3, h4, -⟩ := skipSpaces_eq input (input.length + 1) 0 (Nat.zero_le _) (by omega)
  rw [h1, bind_ok]
  rw [List.drop_zero] at h4
  by_cases he : i = input.length
  · rw [if_neg (by simpa using he)]
    rw [he, List.drop_length] at h4
    rw [← h4]; rfl
  · rw [if_pos he]
    obtain ⟨st', r', e1, e2⟩ := winFrom_eq input (input.length + 1) i {} [] h2 (by omega)
    rw [e1, bind_ok]
    rw [h4] at e2
    rw [List.nil_append] at e2
    cases h5 : input.dropWhile isSpace with
    | nil =>
      rw [← h4] at h5
      exact absurd (List.drop_eq_nil_iff.1 h5) (by omega)
    | cons x r =>
      rw [h5] at e2
      dsimp only
      rw [← e2]; rfl

theorem lastSpace_eq (par : Str) (b e : Nat) (hb : b ≤ e) (he : e ≤ par.length) :
    lastSpace par b e = .ok (b + afterLastSpace ((par.drop b).take (e - b))) := by
  induction e with
  | zero =>
    have : b = 0 := by omega
    subst this
    simp [lastSpace, afterLastSpace]
  | succ e ih =>
    rw [lastSpace]
    by_cases h : e + 1 = b
    · rw [if_pos h, h]; simp [afterLastSpace]
    · rw [if_neg h, deref_lt (show e < par.length by omega)]
      dsimp only
      have hlt : e < par.length := by omega
      have hsplit : (par.drop b).take (e + 1 - b) = (par.drop b).take (e - b) ++ [par[e]] := by
        rw [show e + 1 - b = e - b + 1 by omega, List.take_add_one, List.getElem?_drop, show b + (e - b) = e by omega,
          List.getElem?_eq_getElem hlt]
        rfl
      rw [hsplit]
      unfold afterLastSpace
      rw [List.reverse_append, List.reverse_singleton, List.singleton_append]
      by_cases hs : par[e] = ' '
      · rw [if_pos hs, List.dropWhile_cons_of_neg (by simpa using hs)]
        simp only [List.length_cons, List.length_reverse, List.length_take, List.length_drop]
        congr 1
        omega
      · rw [if_neg hs, ih (by omega) (by omega), List.dropWhile_cons_of_pos (by simpa using hs)]
        rfl

theorem lineEnd_at (par : Str) (b len : Nat) (hb : b < par.length) (hl : 0 < len) :
    lineEnd par b len = .ok (b + PO.lineEnd (par.drop b) len) := by
  unfold lineEnd PO.lineEnd
  rw [sub_le (by omega)]
  simp only [bind_ok, List.length_drop]
  generalize hn : (if par.length - b < len then par.length - b else len) = n
  have hn1 : 0 < n ∧ n ≤ par.length - b ∧ n ≤ len := by split at hn <;> omega
  rw [prev_pos (by omega), bind_ok, deref_lt (show b + n - 1 < par.length by omega), bind_ok]
  have g1 : (par.drop b)[n - 1]? = some (par[b + n - 1]'(by omega)) := by
    rw [List.getElem?_drop, show b + (n - 1) = b + n - 1 by omega, List.getElem?_eq_getElem]
  rw [g1]
  simp only [ne_eq, Option.some.injEq]
  by_cases h1 : par[b + n - 1]'(by omega) = ' '
  · rw [if_neg (by simpa using h1), if_neg (by simp [h1])]; rfl
  · rw [if_pos h1]
    by_cases h2 : b + n < par.length
    · have g2 : (par.drop b)[n]? = some (par[b + n]'(by omega)) := by
        rw [List.getElem?_drop, List.getElem?_eq_getElem]
      rw [if_pos h2, deref_lt h2, bind_ok, g2]
      simp only [Option.some.injEq]
      by_cases h3 : par[b + n]'h2 = ' '
      · rw [if_neg (by simpa using h3), if_neg (by simp [h3])]; rfl
      · rw [if_pos h3, if_pos ⟨h1, by omega, h3⟩, lastSpace_eq par b (b + n) (by omega) (by omega), bind_ok,
          show b + n - b = n by omega]
        have hs := (afterLastSpace_spec ((par.drop b).take n)).1
        rw [List.length_take, List.length_drop] at hs
        generalize afterLastSpace ((par.drop b).take n) = ls at *
        by_cases h4 : ls = 0
        · subst h4; simp
        · rw [if_pos (by omega), sub_le (by omega), bind_ok, show b + n - (b + ls) = n - ls by omega]
          by_cases h5 : n - ls < len / 2
          · rw [if_pos h5, if_pos ⟨h4, h5⟩]; rfl
          · rw [if_neg h5, if_neg (by simp [h5])]; rfl
    · rw [if_neg h2, if_neg (by rintro ⟨_, h, _⟩; omega)]; rfl

theorem skipLead_at (par : Str) (b : Nat) (hb : b < par.length) :
    ∃ b', skipLead par b = .ok b' ∧ b ≤ b' ∧ b' < par.length ∧ par.drop b' = dropLead (par.drop b) := by
  unfold skipLead
  rw [deref_lt hb, bind_ok]
  rw [List.drop_eq_getElem_cons hb]
  by_cases h1 : par[b] = ' '
  · rw [if_pos h1, h1]
    by_cases h2 : b + 1 < par.length
    · rw [if_pos h2, deref_lt h2, bind_ok, List.drop_eq_getElem_cons h2]
      by_cases h3 : par[b + 1] = ' '
      · rw [if_neg (by simpa using h3)]
        refine ⟨b, rfl, Nat.le_refl _, hb, ?_⟩
        rw [List.drop_eq_getElem_cons hb, List.drop_eq_getElem_cons h2, h1, h3]
        rfl
      · rw [if_pos h3]
        refine ⟨b + 1, rfl, by omega, h2, ?_⟩
        rw [List.drop_eq_getElem_cons h2]
        generalize par.drop (b + 1 + 1) = r
        exact (if_pos (c := par[b + 1] ≠ ' ') h3).symm
    · rw [if_neg h2]
      refine ⟨b, rfl, Nat.le_refl _, hb, ?_⟩
      rw [List.drop_eq_getElem_cons hb, List.drop_eq_nil_of_le (by omega), h1]
      rfl
  · rw [if_neg h1]
    refine ⟨b, rfl, Nat.le_refl _, hb, ?_⟩
    rw [List.drop_eq_getElem_cons hb]
    unfold dropLead
    split
    · rename_i h; injection h with h; exact absurd h h1
    · rfl

theorem joinLines_cons (pad : Nat) (l : Str) (ls : List Str) :
    joinLines pad (l :: ls) = l ++ (if ls = [] then [] else '\n' :: spaces pad ++ joinLines pad ls) := by
  cases ls <;> simp [joinLines]

theorem wrapRest_nil {fuel : Nat} {s : Str} {len : Nat} {ls : List Str} (h : wrapRest fuel s len = .ok ls) : ls = [] ↔ s = [] := by
  cases s with
  | nil => rw [wrapRest] at h; cases h; simp
  | cons x xs =>
    cases fuel with
    | zero => rw [wrapRest] at h; cases h
    | succ fuel =>
      rw [wrapRest] at h
      · split at h
        · cases h
        · dsimp only at h
          split at h
          · cases h
          · cases h; simp
      · simp

theorem paragraphLoop_eq (par : Str) (pi ind len : Nat) (hl : 0 < len) (fuel fuel' b : Nat) (os : Str)
    (hf : par.length - b ≤ fuel) (hf' : par.length - b ≤ fuel') :
    paragraphLoop par pi fuel b false ind len os =
      of ((wrapRest fuel' (par.drop b) len).map (fun ls => os ++ joinLines ind ls)) := by
  induction fuel generalizing fuel' b os with
  | zero =>
    rw [paragraphLoop, if_neg (by omega), List.drop_eq_nil_of_le (by omega)]
    simp [wrapRest, Except.map, joinLines]
  | succ fuel ih =>
    rw [paragraphLoop]
    by_cases hb : b < par.length
    · rw [if_pos hb]
      obtain ⟨b', e1, e2, e3, e4⟩ := skipLead_at par b hb
      obtain ⟨k1, k2, k3⟩ := lineEnd_bounds (par.drop b') len
        (by intro h; exact absurd (List.drop_eq_nil_iff.1 h) (by omega)) hl
      rw [List.length_drop] at k3
      simp only [Bool.not_false, if_true, e1, bind_ok, lineEnd_at par b' len e3 hl, Bool.false_eq_true, if_false, pure_ok]
      generalize hn : PO.lineEnd (par.drop b') len = n at *
      have hd : (par.drop b').drop n = par.drop (b' + n) := by rw [List.drop_drop]
      cases fuel' with
      | zero => omega
      | succ fuel' =>
        have hc : par.drop b = par[b] :: par.drop (b + 1) := List.drop_eq_getElem_cons hb
        rw [wrapRest.eq_def]
        rw [hc]
        dsimp only
        rw [← hc, ← e4, hn, hd, if_neg (show ¬ len = 0 by omega), ih fuel' (b' + n) _ (by omega) (by omega)]
        cases hw : wrapRest fuel' (par.drop (b' + n)) len with
        | error f => rfl
        | ok ls =>
          have hnil := wrapRest_nil hw
          simp only [Except.map, of_ok, joinLines_cons]
          rw [show b' + n - b' = n by omega]
          by_cases hx : b' + n = par.length
          · have : ls = [] := hnil.2 (List.drop_eq_nil_of_le (by omega))
            simp [hx, this, joinLines]
          · have : ¬ ls = [] := fun h => absurd (List.drop_eq_nil_iff.1 (hnil.1 h)) (by omega)
            simp [hx, this]
    · rw [if_neg hb, List.drop_eq_nil_of_le (by omega)]
      cases fuel' <;> simp [wrapRest, Except.map, joinLines]

theorem formatParagraph_eq (par : Str) (indent lineLength : Nat) :
    formatParagraph par indent lineLength = of (PO.formatParagraph par indent lineLength) := by
  unfold formatParagraph PO.formatParagraph paragraphLines
  by_cases hi : indent < lineLength
  · rw [if_neg (by simpa using hi), if_pos hi, sub_le (by omega)]
    simp only [bind_ok]
    have hp : (match findChar par '\t' with
        | none => pure (0, par)
        | some i =>
          if par.count '\t' > 1 then
            throw (.fail (.error (str% "Only one tab per paragraph is allowed in the options description")))
          else do
            let par ← (if i ≤ par.length then pure (par.take i ++ par.drop (i + 1)) else throw (.oob .pos))
            if ¬ i < lineLength - indent then throw (.fail (.ub .formatAssert))
            pure (i, par)) = of (parIndent par (lineLength - indent)) := by
      unfold parIndent
      cases hf : findChar par '\t' with
      | none => rfl
      | some i =>
        have := findChar_lt hf
        dsimp only
        split
        · rfl
        · rw [if_pos (by omega)]
          simp only [pure_ok, bind_ok]
          split
          · rfl
          · rename_i h; rw [if_pos (Classical.not_not.1 h)]; rfl
    refine Eq.trans (congrArg (· >>= _) hp) ?_
    cases hpi : parIndent par (lineLength - indent) with
    | error f => exact of_err_map _ rfl
    | ok r =>
      obtain ⟨pi, p⟩ := r
      have hpl : pi < lineLength - indent := by
        unfold parIndent at hpi
        split at hpi
        · cases hpi; omega
        · split at hpi
          · cases hpi
          · split at hpi
            · cases hpi; assumption
            · cases hpi
      simp only [of_ok, bind_ok]
      by_cases hlen : p.length < lineLength - indent
      · rw [if_pos hlen, if_pos hlen]; rfl
      · rw [if_neg hlen, if_neg hlen, paragraphLoop, if_pos (by omega)]
        simp only [Bool.not_true, Bool.false_eq_true, if_false, pure_ok, bind_ok, if_true,
          lineEnd_at p 0 (lineLength - indent) (by omega) (by omega), List.drop_zero, Nat.zero_add, Nat.sub_zero,
          sub_le (Nat.le_of_lt hpl), List.nil_append]
        obtain ⟨k1, k2, k3⟩ := lineEnd_bounds p (lineLength - indent) (by intro h; subst h; simp at hlen; omega) (by omega)
        generalize PO.lineEnd p (lineLength - indent) = n at *
        rw [paragraphLoop_eq p pi (indent + pi) (lineLength - indent - pi) (by omega) p.length p.length n _ (by omega) (by omega)]
        cases hw : wrapRest p.length (p.drop n) (lineLength - indent - pi) with
        | error f => rfl
        | ok ls =>
          have hnil := wrapRest_nil hw
          simp only [Except.map, of_ok, joinLines_cons]
          by_cases hx : n = p.length
          · have : ls = [] := hnil.2 (List.drop_eq_nil_of_le (by omega))
            simp [hx, this, joinLines]
          · have : ¬ ls = [] := fun h => absurd (List.drop_eq_nil_iff.1 (hnil.1 h)) (by omega)
            simp [hx, this]
  · rw [if_pos hi, if_neg hi]; rfl

theorem formatPars_nil {indent lineLength : Nat} {ps ts : List Str} (h : PO.formatPars indent lineLength ps = .ok ts) :
    ts = [] ↔ ps = [] := by
  cases ps with
  | nil => cases h; simp
  | cons p ps =>
    rw [PO.formatPars] at h
    split at h
    · cases h
    · split at h
      · cases h
      · cases h; simp

theorem formatPars_eq (indent lineLength : Nat) (ps : List Str) (os : Str) :
    formatPars indent lineLength ps os =
      of ((PO.formatPars indent lineLength ps).map (fun ts => os ++ joinLines indent ts)) := by
  induction ps generalizing os with
  | nil => simp [formatPars, PO.formatPars, Except.map, joinLines]
  | cons p ps ih =>
    rw [formatPars, PO.formatPars, formatParagraph_eq]
    cases PO.formatParagraph p indent lineLength with
    | error f => cases f <;> first | rfl | (rename_i u; cases u <;> rfl)
    | ok t =>
      simp only [of_ok, ih]
      cases hw : PO.formatPars indent lineLength ps with
      | error f => rfl
      | ok ts =>
        have hnil := formatPars_nil hw
        simp only [Except.map, of_ok, joinLines_cons]
        by_cases hx : ps = []
        · simp [hx, hnil.2 hx, joinLines]
        · have : ¬ ts = [] := fun h => hx (hnil.1 h)
          simp [hx, this]

theorem formatDescription_eq (desc : Str) (firstCol lineLength : Nat) :
    formatDescription desc firstCol lineLength = of (PO.formatDescription desc firstCol lineLength) := by
  unfold formatDescription PO.formatDescription
  by_cases h1 : lineLength > 1
  · rw [if_neg (by simpa using h1), if_pos h1, sub_le (by omega), bind_ok]
    by_cases h2 : lineLength - 1 > firstCol
    · rw [if_neg (not_not_intro h2), if_pos h2, formatPars_eq]
      cases PO.formatPars firstCol (lineLength - 1) (splitNl desc) with
      | error f => rfl
      | ok ts => simp [Except.map]
    · rw [if_pos h2, if_neg h2]; rfl
  · rw [if_pos h1, if_neg h1]; rfl

theorem formatOne_eq (d : OptionDesc) (firstCol lineLength : Nat) :
    formatOne d firstCol lineLength = of (PO.formatOne d firstCol lineLength) := by
  unfold formatOne PO.formatOne OptionDesc.leftColumn
  rw [formatName_eq]
  cases d.formatName with
  | error f => exact of_err_map _ rfl
  | ok name =>
    simp only [of_ok, bind_ok]
    by_cases hd : d.description = []
    · rw [if_pos hd, if_pos hd]; rfl
    · rw [if_neg hd, if_neg hd]
      generalize str% "  " ++ name ++ str% " " ++ d.formatParameter = ss
      have hpad : (if ss.length ≥ firstCol then pure ('\n' :: spaces firstCol) else do
          let n ← sub firstCol ss.length
          pure (spaces n)) =
          (Except.ok (if ss.length ≥ firstCol then '\n' :: spaces firstCol else spaces (firstCol - ss.length)) : Raw Str) := by
        split
        · rfl
        · rw [sub_le (by omega)]; rfl
      rw [hpad]
      simp only [bind_ok]
      rw [formatDescription_eq]
      cases PO.formatDescription d.description firstCol lineLength with
      | error f => exact of_err_map _ rfl
      | ok t => rfl

theorem printFrom_eq (ds : List OptionDesc) (bs : List Bool) (done : List OptionDesc) (bdone : List Bool) (hd : bdone.length = done.length)
    (hl : ds.length = bs.length) (width lineLength : Nat) (os : Str) :
    printFrom (done ++ ds) (bdone ++ bs) width lineLength done.length os =
      of ((formatOptions width lineLength (ownOptions ds bs)).map (fun t => os ++ t)) := by
  induction ds generalizing bs done bdone os with
  | nil =>
    rw [printFrom, if_neg (by simp)]
    cases bs with
    | nil => simp [ownOptions, formatOptions, Except.map]
    | cons => cases hl
  | cons d ds ih =>
    cases bs with
    | nil => cases hl
    | cons b bs =>
      rw [printFrom, if_pos (by simp), get_lt (by simp; omega), get_lt (by simp)]
      simp only [← hd, List.getElem_append_right (Nat.le_refl _), Nat.sub_self, List.getElem_cons_zero]
      simp only [hd, List.getElem_append_right (Nat.le_refl _), Nat.sub_self, List.getElem_cons_zero, ownOptions]
      have key : ∀ os, printFrom (done ++ d :: ds) (bdone ++ b :: bs) width lineLength (done.length + 1) os =
          of ((formatOptions width lineLength (ownOptions ds bs)).map (fun t => os ++ t)) := by
        intro os
        have := ih bs (done ++ [d]) (bdone ++ [b]) (by simp [hd]) (by simpa using hl) os
        simpa using this
      cases b with
      | true => exact key os
      | false =>
        simp only [Bool.false_eq_true, if_false, formatOne_eq, formatOptions]
        cases PO.formatOne d width lineLength with
        | error f => cases f <;> first | rfl | (rename_i u; cases u <;> rfl)
        | ok t =>
          simp only [of_ok, key]
          cases formatOptions width lineLength (ownOptions ds bs) with
          | error f => rfl
          | ok ts => simp [Except.map]

/-- In the object and in all its groups, every option has its entry in `belong_to_group`. -/
inductive Paired : OptionsDesc → Prop
  | mk {o : OptionsDesc} (h : o.options.length = o.belong.length) (hg : ∀ g ∈ o.groups, Paired g) : Paired o

mutual
theorem printWidth_eq (width : Nat) (o : OptionsDesc) (h : Paired o) (os : Str) :
    printWidth width o os = of ((PO.printWidth width o).map (fun t => os ++ t)) := by
  obtain ⟨caption, lineLength, md, options, belong, groups⟩ := o
  cases h with
  | mk hb hg =>
    rw [printWidth, PO.printWidth]
    have := printFrom_eq options belong [] [] rfl hb width lineLength (if caption = [] then os else os ++ caption ++ str% ":\n")
    simp only [List.nil_append, List.length_nil] at this
    rw [this]
    cases formatOptions width lineLength (ownOptions options belong) with
    | error f => cases f <;> first | rfl | (rename_i u; cases u <;> rfl)
    | ok body =>
      simp only [Except.map, of_ok]
      rw [printGroups_eq width groups hg]
      cases PO.printGroups width groups with
      | error f => rfl
      | ok gs => by_cases hc : caption = [] <;> simp [Except.map, hc]
theorem printGroups_eq (width : Nat) (gs : List OptionsDesc) (h : ∀ g ∈ gs, Paired g) (os : Str) :
    printGroups width gs os = of ((PO.printGroups width gs).map (fun t => os ++ t)) := by
  cases gs with
  | nil => simp [printGroups, PO.printGroups, Except.map]
  | cons g gs =>
    rw [printGroups, PO.printGroups, printWidth_eq width g (h g (List.mem_cons_self ..))]
    cases PO.printWidth width g with
    | error f => cases f <;> first | rfl | (rename_i u; cases u <;> rfl)
    | ok t =>
      simp only [Except.map, of_ok]
      rw [printGroups_eq width gs (fun g hg => h g (List.mem_cons_of_mem _ hg))]
      cases PO.printGroups width gs with
      | error f => rfl
      | ok ts => simp [Except.map]
end

theorem print_eq (o : OptionsDesc) (h : Paired o) (width : Nat) : print o width = of (o.print width) := by
  unfold print OptionsDesc.print
  have key : ∀ w, printWidth w o [] = of (PO.printWidth w o) := by
    intro w
    rw [printWidth_eq w o h]
    cases PO.printWidth w o with
    | error f => rfl
    | ok t => simp [Except.map]
  split
  · cases columnWidth o with
    | error f => exact of_err_map _ rfl
    | ok w => exact key w
  · exact key width

theorem addOptions_eq (ps : SSet) (ns : List Str) : addOptions ps ns = of (PO.addOptions ps ns) := by
  induction ns generalizing ps with
  | nil => rfl
  | cons n ns ih =>
    rw [addOptions, PO.addOptions, addOption_eq]
    cases PO.addOption ps n with
    | error f => cases f <;> first | rfl | (rename_i u; cases u <;> rfl)
    | ok ps' => exact ih ps'

theorem lines_eq (it : ConfigIter) (pre : Str) (ls : List Str) (result : List Opt) :
    lines it pre ls result = of ((it.lines pre ls).map (fun os => result ++ os)) := by
  induction ls generalizing pre result with
  | nil => simp [lines, ConfigIter.lines, Except.map]
  | cons l ls ih =>
    rw [lines, ConfigIter.lines, stripLine_eq, bind_ok, line_eq]
    cases it.line pre (PO.stripLine l) with
    | error f => exact of_err_map _ rfl
    | ok r =>
      cases r with
      | skip => exact ih pre result
      | section_ p => exact ih p result
      | option o =>
        simp only [of_ok, bind_ok, ih]
        cases it.lines pre ls with
        | error f => rfl
        | ok os => simp [Except.map]

theorem namesFromDesc_eq (done ds : List OptionDesc) (acc : SSet) :
    namesFromDesc (done ++ ds) done.length acc = of (allowedNames ds acc) := by
  induction ds generalizing done acc with
  | nil => rw [namesFromDesc, if_neg (by simp)]; rfl
  | cons d ds ih =>
    rw [namesFromDesc, if_pos (by simp), get_lt (by simp), allowedNames]
    simp only [List.getElem_append_right (Nat.le_refl _), Nat.sub_self, List.getElem_cons_zero]
    split
    · rfl
    · have := ih (done ++ [d]) (acc.insert d.longName)
      simpa using this

theorem parseConfigFile_eq (text : Str) (desc : List OptionDesc) (au : Bool) :
    parseConfigFile text desc au = of ((PO.parseConfigFile text desc au).map (·.options)) := by
  unfold parseConfigFile PO.parseConfigFile ConfigIter.make
  have h := namesFromDesc_eq [] desc []
  simp only [List.nil_append, List.length_nil] at h
  rw [h]
  cases allowedNames desc [] with
  | error f => exact of_err_map _ rfl
  | ok allowed =>
    simp only [of_ok, bind_ok, addOptions_eq]
    cases PO.addOptions [] allowed with
    | error f => exact of_err_map _ rfl
    | ok ps =>
      simp only [of_ok, bind_ok, lines_eq]
      generalize ConfigIter.lines _ [] (getlines '\n' text) = r
      cases r with
      | error f => rfl
      | ok os => simp [Except.map]

end PO.Raw
