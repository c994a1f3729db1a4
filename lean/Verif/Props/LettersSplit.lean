import Verif.Spec.LettersSplit
import Verif.Props.Letters
/-
C156: no letter is special to the two splitters, except the ones they are documented to know.
-/
namespace PO
open Letters

namespace Letters

theorem elem_ren {l l' : Str} {π : Char → Char} (h : ∀ c, π c ∈ l' ↔ c ∈ l) (c : Char) : l'.elem (π c) = l.elem c := by
  rw [Bool.eq_iff_iff, List.elem_iff, List.elem_iff]
  exact h c

theorem tokenize_ren {π : Char → Char} {sep quote esc sep' quote' esc' : Str} (H : HarmlessUnix π sep quote esc sep' quote' esc') :
    ∀ (n : Nat) (s : Str) (q : Bool) (cur : Str), s.length ≤ n →
    tokenizeFields sep' quote' esc' (ren π s) q (ren π cur) = renWith π (List.map (ren π)) (tokenizeFields sep quote esc s q cur) := by
  intro n
  induction n with
  | zero =>
    intro s q cur hn
    have : s = [] := List.length_eq_zero_iff.1 (by omega)
    subst this
    simp [ren, tokenizeFields, renWith]
  | succ n ih =>
    intro s q cur hn
    have e1 := elem_ren H.sep
    have e2 := elem_ren H.quote
    have e3 := elem_ren H.esc
    have snoc : ∀ c, ren π cur ++ [π c] = ren π (cur ++ [c]) := by intro c; simp [ren]
    cases s with
    | nil => simp [ren, tokenizeFields, renWith]
    | cons c cs =>
      rw [show ren π (c :: cs) = π c :: ren π cs from rfl]
      simp only [List.length_cons] at hn
      cases cs with
      | nil =>
        unfold tokenizeFields
        rw [e1, e2, e3]
        by_cases h3 : esc.elem c = true
        · rw [if_pos h3, if_pos h3]; rfl
        rw [if_neg h3, if_neg h3]
        by_cases h1 : sep.elem c = true
        · rw [if_pos h1, if_pos h1]
          cases q <;> simp [tokenizeFields, renWith, ren]
        rw [if_neg h1, if_neg h1]
        by_cases h2 : quote.elem c = true
        · rw [if_pos h2, if_pos h2]
          simp [tokenizeFields, renWith, ren]
        rw [if_neg h2, if_neg h2]
        simp [tokenizeFields, renWith, ren]
      | cons e es =>
        simp only [List.length_cons] at hn
        rw [tokenizeFields.eq_def sep quote esc (c :: e :: es), tokenizeFields.eq_def sep' quote' esc' (π c :: _)]
        dsimp only [ren, List.map_cons]
        rw [e1 c, e2 c, e3 c]
        by_cases h3 : esc.elem c = true
        · rw [if_pos h3, if_pos h3]
          change (if π e = 'n' then tokenizeFields sep' quote' esc' (ren π es) q (ren π cur ++ ['\n'])
            else if (quote'.elem (π e) || sep'.elem (π e) || esc'.elem (π e)) = true then
              tokenizeFields sep' quote' esc' (ren π es) q (ren π cur ++ [π e])
            else .error .escapedList) = _
          rw [e1, e2, e3]
          by_cases hl : e = 'n'
          · rw [if_pos hl, if_pos ((H.letter e).2 hl)]
            have := ih es q (cur ++ ['\n']) (by omega)
            rw [← snoc, H.newline] at this
            exact this
          · rw [if_neg hl, if_neg (fun h => hl ((H.letter e).1 h))]
            split
            · have := ih es q (cur ++ [e]) (by omega)
              rw [← snoc] at this
              exact this
            · rfl
        rw [if_neg h3, if_neg h3]
        by_cases h1 : sep.elem c = true
        · rw [if_pos h1, if_pos h1]
          cases q with
          | true =>
            have := ih (e :: es) true (cur ++ [c]) (by simp; omega)
            rw [← snoc] at this
            exact this
          | false =>
            have := ih (e :: es) false [] (by simp; omega)
            simp only [ren, List.map_nil] at this
            simp only [Bool.false_eq_true, if_false, this]
            cases tokenizeFields sep quote esc (e :: es) false [] <;> rfl
        rw [if_neg h1, if_neg h1]
        by_cases h2 : quote.elem c = true
        · rw [if_pos h2, if_pos h2]
          exact ih (e :: es) (!q) cur (by simp; omega)
        rw [if_neg h2, if_neg h2]
        have := ih (e :: es) q (cur ++ [c]) (by simp; omega)
        rw [← snoc] at this
        exact this

theorem isSpace_iff (c : Char) : isSpace c = true ↔ c ∈ [' ', '\t', '\n', '\x0b', '\x0c', '\r'] := by
  simp [isSpace, or_assoc]

def renState (π : Char → Char) (st : WinState) : WinState := { st with current := ren π st.current }

theorem winLoop_ren {π : Char → Char} (H : HarmlessWinmain π) (s : Str) (skipping : Bool) (st : WinState) :
    winLoop (ren π s) skipping (renState π st) = (winLoop s skipping st).map (ren π) := by
  have hb : π '\\' = '\\' := (H.backslash _).2 rfl
  have hq : π '"' = '"' := (H.quote _).2 rfl
  have hs : ∀ c, isSpace (π c) = isSpace c := by
    intro c
    rw [Bool.eq_iff_iff, isSpace_iff, isSpace_iff]
    exact H.blank c
  have slashes : ∀ (cur : Str) n, ren π cur ++ List.replicate n '\\' = ren π (cur ++ List.replicate n '\\') := by
    intro cur n; simp [ren, hb]
  induction s generalizing skipping st with
  | nil =>
    simp only [ren, List.map_nil, winLoop, renState]
    by_cases h : st.backslashes = 0
    · simp only [h, ne_eq, not_true_eq_false, if_false, List.map_eq_nil_iff]
      split <;> simp
    · simp only [h, ne_eq, not_false_eq_true, if_true]
      have := slashes st.current st.backslashes
      simp only [ren] at this
      rw [this]
      simp only [List.map_eq_nil_iff]
      split <;> simp
  | cons c cs ih =>
    rw [show ren π (c :: cs) = π c :: ren π cs from rfl, winLoop, winLoop, hs]
    by_cases h1 : (skipping && isSpace c) = true
    · rw [if_pos h1, if_pos h1]; exact ih _ _
    rw [if_neg h1, if_neg h1]
    by_cases h2 : c = '"'
    · rw [if_pos h2, if_pos ((H.quote c).2 h2)]
      dsimp only
      rw [show (renState π st).backslashes = st.backslashes from rfl]
      by_cases h3 : st.backslashes % 2 = 0
      · rw [if_pos h3, if_pos h3, ← ih]
        have he : ∀ l : Str, (ren π l).isEmpty = l.isEmpty := by intro l; cases l <;> rfl
        have hl := slashes st.current (st.backslashes / 2)
        simp only [renState]
        rw [hl, he]
      · rw [if_neg h3, if_neg h3, ← ih]
        simp [renState, ren, hb, hq]
    rw [if_neg h2, if_neg (fun h => h2 ((H.quote c).1 h))]
    by_cases h3 : c = '\\'
    · rw [if_pos h3, if_pos ((H.backslash c).2 h3), ← ih]
      simp [renState]
    rw [if_neg h3, if_neg (fun h => h3 ((H.backslash c).1 h))]
    dsimp only
    have hcur : (if (renState π st).backslashes ≠ 0 then (renState π st).current ++ List.replicate (renState π st).backslashes '\\'
          else (renState π st).current) =
        ren π (if st.backslashes ≠ 0 then st.current ++ List.replicate st.backslashes '\\' else st.current) := by
      by_cases h : st.backslashes = 0
      · simp [renState, h]
      · simp [renState, h, ren, hb]
    rw [hcur, show (renState π st).insideQuoted = st.insideQuoted from rfl]
    by_cases h4 : (isSpace c && !st.insideQuoted) = true
    · rw [if_pos h4, if_pos h4, List.map_cons, ← ih]
      rfl
    · rw [if_neg h4, if_neg h4, ← ih]
      simp [renState, ren]

end Letters

/-- `split_unix` of the text in other letters. -/
theorem C156_unix (π : Char → Char) (sep quote esc sep' quote' esc' : Str) (H : HarmlessUnix π sep quote esc sep' quote' esc') (s : Str) :
    splitUnix (ren π s) sep' quote' esc' = renWith π (List.map (ren π)) (splitUnix s sep quote esc) := by
  have h := tokenize_ren H s.length s false [] (Nat.le_refl _)
  unfold splitUnix
  rw [show ren π [] = [] from rfl] at h
  rw [h]
  cases tokenizeFields sep quote esc s false [] with
  | error f => rfl
  | ok fs =>
    simp only [renWith]
    congr 1
    induction fs with
    | nil => rfl
    | cons f fs ih =>
      rw [List.map_cons, List.filter_cons, List.filter_cons]
      by_cases hf : f = []
      · subst hf; simpa [ren] using ih
      · simpa [ren, hf] using ih

/-- With the usual separators, quotes and escape character these are the only replacements. -/
theorem C156_unix_iff (π : Char → Char) :
    (∀ s, splitUnix (ren π s) = renWith π (List.map (ren π)) (splitUnix s)) ↔
    HarmlessUnix π [' ', '\t'] ['\'', '"'] ['\\'] [' ', '\t'] ['\'', '"'] ['\\'] := by
  refine ⟨fun h => ?_, fun H s => C156_unix π _ _ _ _ _ _ H s⟩
  have one : ∀ c, splitUnix [c] = if c = '\\' then .error .escapedList
      else if c ∈ [' ', '\t'] ∨ c ∈ ['\'', '"'] then .ok [] else .ok [[c]] := by
    intro c
    by_cases h1 : c = '\\'
    · subst h1; rfl
    by_cases h2 : c ∈ [' ', '\t']
    · simp only [List.mem_cons, List.not_mem_nil, or_false] at h2
      rcases h2 with rfl | rfl <;> rfl
    by_cases h3 : c ∈ ['\'', '"']
    · simp only [List.mem_cons, List.not_mem_nil, or_false] at h3
      rcases h3 with rfl | rfl <;> rfl
    rw [if_neg h1, if_neg (by tauto)]
    simp only [List.mem_cons, List.not_mem_nil, or_false] at h2 h3
    simp [splitUnix, tokenizeFields, h1, h2, h3]
  have esc : ∀ c, π c = '\\' ↔ c = '\\' := by
    intro c
    have hc := h [c]
    rw [show ren π [c] = [π c] from rfl, one, one] at hc
    by_cases h1 : c = '\\' <;> by_cases h2 : π c = '\\'
    · tauto
    · rw [if_pos h1, if_neg h2] at hc
      split at hc <;> cases hc
    · rw [if_neg h1, if_pos h2] at hc
      split at hc <;> cases hc
    · tauto
  have special : ∀ c, (π c ∈ [' ', '\t'] ∨ π c ∈ ['\'', '"']) ↔ (c ∈ [' ', '\t'] ∨ c ∈ ['\'', '"']) := by
    intro c
    by_cases h0 : c = '\\'
    · rw [(esc c).2 h0, h0]
    have hc := h [c]
    rw [show ren π [c] = [π c] from rfl, one, one, if_neg h0, if_neg (fun h => h0 ((esc c).1 h))] at hc
    by_cases h1 : c ∈ [' ', '\t'] ∨ c ∈ ['\'', '"'] <;> by_cases h2 : π c ∈ [' ', '\t'] ∨ π c ∈ ['\'', '"']
    · tauto
    · rw [if_pos h1, if_neg h2] at hc
      cases hc
    · rw [if_neg h1, if_pos h2] at hc
      cases hc
    · tauto
  have between : ∀ x c, x ≠ '\\' → ¬ (x ∈ [' ', '\t'] ∨ x ∈ ['\'', '"']) → (c ∈ [' ', '\t'] ∨ c ∈ ['\'', '"']) →
      splitUnix [x, c, x] = if c ∈ [' ', '\t'] then .ok [[x], [x]] else .ok [[x, x]] := by
    intro x c h1 h2 h3
    simp only [List.mem_cons, List.not_mem_nil, or_false, not_or] at h2 h3
    rcases h3 with (rfl | rfl) | (rfl | rfl) <;> simp [splitUnix, tokenizeFields, h1, h2]
  have sep : ∀ c, π c ∈ [' ', '\t'] ↔ c ∈ [' ', '\t'] := by
    intro c
    by_cases hs : c ∈ [' ', '\t'] ∨ c ∈ ['\'', '"']
    · have hc := h ['x', c, 'x']
      rw [show ren π ['x', c, 'x'] = [π 'x', π c, π 'x'] from rfl,
        between 'x' c (by decide) (by decide) hs,
        between (π 'x') (π c) (by rw [ne_eq, esc]; decide) (by rw [special]; decide) ((special c).2 hs)] at hc
      by_cases h1 : c ∈ [' ', '\t'] <;> by_cases h2 : π c ∈ [' ', '\t']
      · tauto
      · rw [if_pos h1, if_neg h2] at hc
        cases hc
      · rw [if_neg h1, if_pos h2] at hc
        cases hc
      · tauto
    · have hs' := fun hp => hs ((special c).1 hp)
      tauto
  have quote : ∀ c, π c ∈ ['\'', '"'] ↔ c ∈ ['\'', '"'] := by
    intro c
    have disjoint : ∀ c : Char, c ∈ ['\'', '"'] → c ∉ [' ', '\t'] := by
      intro c hc
      simp only [List.mem_cons, List.not_mem_nil, or_false] at hc
      rcases hc with rfl | rfl <;> decide
    have d1 := disjoint c
    have d2 := disjoint (π c)
    have := sep c
    have := special c
    tauto
  have escaped : ∀ c, splitUnix ['\\', c] = if c = 'n' then .ok [['\n']]
      else if c = '\\' ∨ c ∈ [' ', '\t'] ∨ c ∈ ['\'', '"'] then .ok [[c]] else .error .escapedList := by
    intro c
    by_cases h1 : c = 'n'
    · subst h1; rfl
    rw [if_neg h1]
    by_cases h2 : c = '\\' ∨ c ∈ [' ', '\t'] ∨ c ∈ ['\'', '"']
    · rw [if_pos h2]
      simp only [List.mem_cons, List.not_mem_nil, or_false] at h2
      rcases h2 with rfl | (rfl | rfl) | (rfl | rfl) <;> rfl
    · rw [if_neg h2]
      simp only [List.mem_cons, List.not_mem_nil, or_false, not_or] at h2
      simp [splitUnix, tokenizeFields, h1, h2]
  have ordinary : ∀ c, (π c = '\\' ∨ π c ∈ [' ', '\t'] ∨ π c ∈ ['\'', '"']) ↔ (c = '\\' ∨ c ∈ [' ', '\t'] ∨ c ∈ ['\'', '"']) := by
    intro c
    rw [esc, sep, quote]
  have two : ∀ c, splitUnix ['\\', π c] = renWith π (List.map (ren π)) (splitUnix ['\\', c]) := by
    intro c
    have := h ['\\', c]
    rwa [show ren π ['\\', c] = [π '\\', π c] from rfl, (esc _).2 rfl] at this
  have hn : π 'n' = 'n' := by
    by_contra hne
    have := two 'n'
    rw [escaped, escaped, if_neg hne, if_neg (by rw [ordinary]; decide), if_pos rfl] at this
    cases this
  refine ⟨sep, quote, fun c => by simpa using esc c, fun c => ⟨fun hc => ?_, fun hc => by rw [hc, hn]⟩, ?_⟩
  · by_contra hne
    have := two c
    rw [escaped, escaped, if_pos hc, if_neg hne, if_neg (by rw [← ordinary, hc]; decide)] at this
    cases this
  · have := two 'n'
    rw [escaped, escaped, if_pos hn, if_pos rfl] at this
    injection this with this
    simp only [List.map_cons, List.map_nil, List.cons.injEq, and_true] at this
    exact this.symm

/-- `split_winmain` of the text in other letters. -/
theorem C156_winmain (π : Char → Char) (H : HarmlessWinmain π) (s : Str) :
    splitWinmain (ren π s) = (splitWinmain s).map (ren π) := by
  have hs : ∀ c, isSpace (π c) = isSpace c := by
    intro c
    rw [Bool.eq_iff_iff, isSpace_iff, isSpace_iff]
    exact H.blank c
  have hd : (ren π s).dropWhile isSpace = ren π (s.dropWhile isSpace) := by
    simp only [ren, List.dropWhile_map]
    congr 2
    funext c
    exact hs c
  unfold splitWinmain
  rw [hd]
  cases s.dropWhile isSpace with
  | nil => rfl
  | cons c cs => exact winLoop_ren H (c :: cs) false {}

/-- These are the only replacements. -/
theorem C156_winmain_iff (π : Char → Char) :
    (∀ s, splitWinmain (ren π s) = (splitWinmain s).map (ren π)) ↔ HarmlessWinmain π := by
  refine ⟨fun h => ?_, fun H s => C156_winmain π H s⟩
  have one : ∀ c, splitWinmain [c] = if isSpace c then [] else if c = '"' then [[]] else [[c]] := by
    intro c
    by_cases h1 : isSpace c = true
    · simp [splitWinmain, h1]
    by_cases h2 : c = '"'
    · subst h2; rfl
    by_cases h3 : c = '\\'
    · subst h3; rfl
    simp [splitWinmain, h1, h2, h3, winLoop]
  have quoted : ∀ c, isSpace c = false → c ≠ '"' → splitWinmain [c, '"'] = if c = '\\' then [['"']] else [[c]] := by
    intro c h1 h2
    by_cases h3 : c = '\\'
    · subst h3; rfl
    simp [splitWinmain, h1, h2, h3, winLoop]
  have blank : ∀ c, isSpace (π c) = isSpace c := by
    intro c
    have hc := h [c]
    rw [show ren π [c] = [π c] from rfl, one, one] at hc
    cases h1 : isSpace c <;> cases h2 : isSpace (π c) <;> rw [h1, h2] at hc
    · exfalso
      simp only [if_true, Bool.false_eq_true, if_false] at hc
      split at hc <;> cases hc
    · exfalso
      simp only [if_true, Bool.false_eq_true, if_false] at hc
      split at hc <;> cases hc
  have quote : ∀ c, π c = '"' ↔ c = '"' := by
    intro c
    by_cases h0 : isSpace c = true
    · have h0' := h0
      rw [← blank] at h0'
      constructor
      · intro e; rw [e] at h0'; cases h0'
      · intro e; rw [e] at h0; cases h0
    have hc := h [c]
    rw [show ren π [c] = [π c] from rfl, one, one, blank, if_neg h0, if_neg h0] at hc
    by_cases h1 : c = '"' <;> by_cases h2 : π c = '"'
    · tauto
    · rw [if_pos h1, if_neg h2] at hc
      cases hc
    · rw [if_neg h1, if_pos h2] at hc
      cases hc
    · tauto
  have two : ∀ c, splitWinmain [π c, '"'] = (splitWinmain [c, '"']).map (ren π) := by
    intro c
    have := h [c, '"']
    rwa [show ren π [c, '"'] = [π c, π '"'] from rfl, (quote _).2 rfl] at this
  have hb : π '\\' = '\\' := by
    by_contra hne
    have := two '\\'
    rw [quoted (π '\\') (by rw [blank]; rfl) (by rw [ne_eq, quote]; decide), if_neg hne, quoted '\\' rfl (by decide), if_pos rfl] at this
    simp only [List.map_cons, List.map_nil, List.cons.injEq, and_true, (quote '"').2 rfl] at this
    rw [quote] at this
    cases this
  refine ⟨fun c => by rw [← isSpace_iff, ← isSpace_iff, blank], quote, fun c => ⟨fun hc => ?_, fun hc => by rw [hc, hb]⟩⟩
  by_contra hne
  have h1 : isSpace c = false := by rw [← blank, hc]; rfl
  have h2 : c ≠ '"' := by rw [ne_eq, ← quote, hc]; decide
  have := two c
  rw [hc, quoted c h1 h2, if_neg hne, quoted '\\' rfl (by decide), if_pos rfl] at this
  simp only [List.map_cons, List.map_nil, hc] at this
  cases this

/-- Both splitters with `a` and `b` swapped. -/
example : HarmlessUnix swapped [' ', '\t'] ['\'', '"'] ['\\'] [' ', '\t'] ['\'', '"'] ['\\'] ∧ HarmlessWinmain swapped ∧
    splitUnix (Test.L "--bar 'a b'\\na") = .ok [Test.L "--bar", Test.L "a b\na"] ∧
    splitUnix (Test.L "--abr 'b a'\\nb") = .ok [Test.L "--abr", Test.L "b a\nb"] ∧
    splitWinmain (Test.L "/bar \"a b\\\"\"") = [Test.L "/bar", Test.L "a b\""] ∧
    splitWinmain (Test.L "/abr \"b a\\\"\"") = [Test.L "/abr", Test.L "b a\""] := by
  have e : ∀ x, swapped x = x → ∀ c, swapped c = x ↔ c = x := by
    intro x hx c
    constructor
    · intro h
      rw [← swapped_swapped c, h, hx]
    · rintro rfl
      exact hx
  have m : ∀ l : Str, (∀ x ∈ l, swapped x = x) → ∀ c, swapped c ∈ l ↔ c ∈ l := by
    intro l hl c
    constructor
    · intro h
      have := hl _ h
      rw [swapped_swapped] at this
      rwa [this]
    · intro h
      rwa [hl _ h]
  have HU : HarmlessUnix swapped [' ', '\t'] ['\'', '"'] ['\\'] [' ', '\t'] ['\'', '"'] ['\\'] :=
    ⟨m _ (by decide), m _ (by decide), m _ (by decide), e _ (by decide), by decide⟩
  have HW : HarmlessWinmain swapped := ⟨m _ (by decide), e _ (by decide), e _ (by decide)⟩
  have h1 : splitUnix (Test.L "--bar 'a b'\\na") = .ok [Test.L "--bar", Test.L "a b\na"] := by
    have : tokenizeFields [' ', '\t'] ['\'', '"'] ['\\'] (Test.L "--bar 'a b'\\na") false [] = .ok [Test.L "--bar", Test.L "a b\na"] := by
      simp [Test.L, tokenizeFields]
    unfold splitUnix
    rw [this]
    rfl
  have h2 : splitWinmain (Test.L "/bar \"a b\\\"\"") = [Test.L "/bar", Test.L "a b\""] := by decide
  have h3 := C156_unix swapped _ _ _ _ _ _ HU (Test.L "--bar 'a b'\\na")
  have h4 := C156_winmain swapped HW (Test.L "/bar \"a b\\\"\"")
  rw [h1, show ren swapped (Test.L "--bar 'a b'\\na") = Test.L "--abr 'b a'\\nb" by decide] at h3
  rw [h2, show ren swapped (Test.L "/bar \"a b\\\"\"") = Test.L "/abr \"b a\\\"\"" by decide] at h4
  refine ⟨HU, HW, h1, h3.trans ?_, h2, h4.trans ?_⟩
  · exact congrArg Except.ok (show _ = [Test.L "--abr", Test.L "b a\nb"] by decide)
  · decide

end PO
