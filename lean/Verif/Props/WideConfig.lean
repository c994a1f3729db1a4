import Verif.Props.Wide
import Verif.Lemmas.Config
/-
C73: wide configuration files.
-/
namespace PO
open Spec

/-- The UTF-8 text of some wide string. -/
def Encoded (s : Str) : Prop := ∃ w, Wchars w ∧ s = utf8Text w

theorem Encoded.nil : Encoded [] := ⟨[], nofun, rfl⟩

theorem Encoded.append {a b : Str} (ha : Encoded a) (hb : Encoded b) : Encoded (a ++ b) := by
  obtain ⟨w, h1, rfl⟩ := ha
  obtain ⟨v, h2, rfl⟩ := hb
  exact ⟨w ++ v, fun x hx => (List.mem_append.1 hx).elim (h1 x) (h2 x), (utf8Text_append _ _).symm⟩

theorem Encoded.ascii {x : Char} (h : x.toNat < 128) : Encoded [x] :=
  ⟨[x.toNat], fun y hy => by rw [List.mem_singleton] at hy; omega, by rw [utf8Text_ascii _ h]; simp [utf8Text, octetsToStr]⟩

theorem Encoded.split {a b : Str} {x : Char} (hx : x.toNat < 128) (h : Encoded (a ++ x :: b)) : Encoded a ∧ Encoded b := by
  obtain ⟨w, hw, e⟩ := h
  obtain ⟨wa, wb, h1, h2, h3⟩ := utf8Text_split w hw a b x hx e.symm
  subst h1
  exact ⟨⟨wa, fun y hy => hw y (by simp [hy]), h2⟩, ⟨wb, fun y hy => hw y (by simp [hy]), h3⟩⟩

theorem isWs_ascii {x : Char} (h : isWs x = true) : x.toNat < 128 := by
  simp only [isWs, Bool.or_eq_true, beq_iff_eq] at h
  rcases h with ((h | h) | h) | h <;> rw [h] <;> decide

theorem Encoded.dropWhile {s : Str} (h : Encoded s) : Encoded (s.dropWhile isWs) := by
  induction s with
  | nil => exact h
  | cons x s ih =>
    rw [List.dropWhile_cons]
    split
    · rename_i hx
      exact ih (Encoded.split (a := []) (isWs_ascii hx) h).2
    · exact h

theorem Encoded.dropBack {s : Str} (h : Encoded s.reverse) : Encoded (s.dropWhile isWs).reverse := by
  induction s with
  | nil => exact h
  | cons x s ih =>
    rw [List.dropWhile_cons]
    split
    · rename_i hx
      rw [List.reverse_cons] at h
      exact ih (Encoded.split (isWs_ascii hx) h).1
    · exact h

theorem Encoded.trim {s : Str} (h : Encoded s) : Encoded (trimWs s) := by
  unfold trimWs
  apply Encoded.dropBack
  rw [List.reverse_reverse]
  exact h.dropWhile

theorem Encoded.strip {s : Str} (h : Encoded s) : Encoded (stripLine s) := by
  unfold stripLine
  apply Encoded.trim
  split
  · rename_i n hn
    obtain ⟨a, b, e, _, hl⟩ := findChar_eq_some.1 hn
    rw [e] at h ⊢
    rw [← hl, List.take_left]
    exact (Encoded.split (by decide) h).1
  · exact h

/-- What a line of encoded text yields is encoded. -/
theorem line_encoded (it : ConfigIter) (pre s : Str) (hp : Encoded pre) (h : Encoded s) :
    match it.line pre s with
    | .ok (.section_ p) => Encoded p
    | .ok (.option o) => (∀ v ∈ o.value, Encoded v) ∧ ∀ t ∈ o.originalTokens, Encoded t
    | _ => True := by
  unfold ConfigIter.line
  by_cases h0 : s = []
  · rw [if_pos h0]; trivial
  · rw [if_neg h0]
    by_cases hb : s.head? = some '[' ∧ s.getLast? = some ']'
    · rw [if_pos hb]
      have hsub : Encoded (substr s 1 (s.length - 2)) := by
        cases s with
        | nil => exact absurd rfl h0
        | cons x s =>
          have hx : x = '[' := by simpa using hb.1
          subst hx
          have h1 := (Encoded.split (a := []) (by decide) h).2
          unfold substr
          rw [List.drop_succ_cons, List.drop_zero]
          cases hs : s.reverse with
          | nil =>
            have : s = [] := by simpa using hs
            rw [this]; exact .nil
          | cons y r =>
            have hs' : s = r.reverse ++ [y] := by rw [← List.reverse_reverse s, hs, List.reverse_cons]
            have hy : y = ']' := by
              have := hb.2
              rw [hs', ← List.cons_append, List.getLast?_concat] at this
              simpa using this
            rw [hs'] at h1
            rw [hy] at h1
            have h2 := (Encoded.split (by decide) h1).1
            rw [hs']
            simp only [List.length_cons, List.length_append, List.length_nil]
            have e : r.reverse.length + (0 + 1) + 1 - 2 = r.reverse.length := by omega
            rw [e, List.take_left]
            exact h2
      generalize substr s 1 (s.length - 2) = p at hsub
      dsimp only
      split <;> rename_i h1 <;> split at h1 <;> first
        | cases h1; done
        | (cases h1; exact hsub)
        | (cases h1; exact hsub.append (.ascii (by decide)))
        | trivial
    · rw [if_neg hb]
      cases hf : findChar s '=' with
      | none => trivial
      | some n =>
        obtain ⟨a, b, e, _, hl⟩ := findChar_eq_some.1 hf
        subst hl e
        obtain ⟨h1, h2⟩ := Encoded.split (by decide) h
        have e1 : (a ++ '=' :: b).take a.length = a := List.take_left
        have e2 : (a ++ '=' :: b).drop (a.length + 1) = b := by
          rw [← List.drop_drop, List.drop_left]; rfl
        dsimp only
        rw [e1, e2]
        split <;> rename_i h3 <;> split at h3 <;> first
          | (cases h3; done)
          | trivial
          | (cases h3
             refine ⟨?_, ?_⟩
             · intro v hv
               rw [List.mem_singleton] at hv
               subst hv
               exact h2.trim
             · intro t ht
               simp only [List.mem_cons, List.not_mem_nil, or_false] at ht
               rcases ht with rfl | rfl
               · exact hp.append h1.trim
               · exact h2.trim)

theorem octetsToStr_high (x : Nat) (h : 128 ≤ x) (hx : x < 2 ^ 31) : ∀ y ∈ octetsToStr (encodeChar x), 128 ≤ y.toNat := by
  intro y hy
  obtain ⟨b, hb, rfl⟩ := List.mem_map.1 hy
  rw [toNat_ofNat_small (encodeChar_octet x hx b hb)]
  exact encodeChar_high x h b hb

theorem getlinesAux_skip (sep : Char) (a s cur : Str) (h : ∀ y ∈ a, y ≠ sep) :
    getlinesAux sep (a ++ s) cur = getlinesAux sep s (cur ++ a) := by
  induction a generalizing cur with
  | nil => simp
  | cons x a ih =>
    rw [List.cons_append, getlinesAux, if_neg (h x (by simp)), ih _ (fun y hy => h y (by simp [hy]))]
    simp

theorem utf8Text_eq_nil {w : WStr} : utf8Text w = [] ↔ w = [] := by
  constructor
  · intro h
    cases w with
    | nil => rfl
    | cons x w => rw [utf8Text_cons] at h; simp [octetsToStr, encodeChar] at h
  · rintro rfl; rfl

/-- The lines of the encoded text are the encoded lines. -/
theorem wgetlines_eq (text cur : WStr) (hw : Wchars text) :
    getlinesAux '\n' (utf8Text text) (utf8Text cur) = (wgetlinesAux 10 text cur).map utf8Text := by
  induction text generalizing cur with
  | nil =>
    show getlinesAux '\n' [] _ = _
    unfold getlinesAux wgetlinesAux
    by_cases h : cur = []
    · rw [if_pos h, if_pos (utf8Text_eq_nil.2 h)]; rfl
    · rw [if_neg h, if_neg (mt utf8Text_eq_nil.1 h)]; rfl
  | cons x text ih =>
    have hw' : Wchars text := fun y hy => hw y (by simp [hy])
    rw [wgetlinesAux]
    by_cases hx : x = 10
    · subst hx
      rw [if_pos rfl, utf8Text_ascii 10 (by decide), getlinesAux, if_pos (by decide), List.map_cons]
      exact congrArg _ (ih [] hw')
    · rw [if_neg hx, ← ih _ hw', utf8Text_cons, getlinesAux_skip, utf8Text_append]
      · congr 2
        simp [utf8Text]
      · intro y hy e
        subst e
        by_cases h : x < 128
        · rw [encodeChar_ascii x h] at hy
          simp only [octetsToStr, List.map_cons, List.map_nil, List.mem_singleton] at hy
          have := congrArg Char.toNat hy
          rw [toNat_ofNat_small (Nat.lt_trans h (by decide))] at this
          exact hx this.symm
        · have := octetsToStr_high x (by omega) (hw x (by simp)) _ hy
          exact absurd this (by decide)

theorem wgetlines_chars (text cur : WStr) (hw : Wchars text) (hc : Wchars cur) : ∀ l ∈ wgetlinesAux 10 text cur, Wchars l := by
  induction text generalizing cur with
  | nil =>
    unfold wgetlinesAux
    split
    · nofun
    · intro l hl; rw [List.mem_singleton] at hl; subst hl; exact hc
  | cons x text ih =>
    have hw' : Wchars text := fun y hy => hw y (by simp [hy])
    rw [wgetlinesAux]
    split
    · intro l hl
      rcases List.mem_cons.1 hl with rfl | hl
      · exact hc
      · exact ih [] hw' nofun l hl
    · refine ih _ hw' ?_
      intro y hy
      rcases List.mem_append.1 hy with hy | hy
      · exact hc y hy
      · rw [List.mem_singleton] at hy; subst hy; exact hw y (by simp)

/-- Reading wide lines is reading the encoded lines, and what comes out is encoded. -/
theorem wlines_eq (env : Env) (it : ConfigIter) (pre : Str) (ls : List WStr) :
    it.wlines env.withUtf8 pre ls = it.lines pre (ls.map utf8Text) := by
  induction ls generalizing pre with
  | nil => rfl
  | cons l ls ih =>
    rw [List.map_cons, ConfigIter.wlines, ConfigIter.lines, withUtf8_to]
    dsimp only
    simp only [ih]

theorem lines_encoded (it : ConfigIter) (pre : Str) (hp : Encoded pre) (ls : List Str) (hl : ∀ l ∈ ls, Encoded l) (os : List Opt)
    (h : it.lines pre ls = .ok os) : ∀ o ∈ os, (∀ v ∈ o.value, Encoded v) ∧ ∀ t ∈ o.originalTokens, Encoded t := by
  induction ls generalizing pre os with
  | nil => cases h; nofun
  | cons l ls ih =>
    have hl' : ∀ l ∈ ls, Encoded l := fun x hx => hl x (by simp [hx])
    have he := line_encoded it pre _ hp (hl l (by simp)).strip
    rw [ConfigIter.lines] at h
    split at h
    · cases h
    · exact ih _ hp hl' _ h
    · rename_i p e
      rw [e] at he
      exact ih _ he hl' _ h
    · rename_i o e
      rw [e] at he
      split at h
      · cases h
      · rename_i os' e'
        cases h
        intro o' ho'
        rcases List.mem_cons.1 ho' with rfl | ho'
        · exact he
        · exact ih _ hp hl' _ e' o' ho'

/-- **C73:** a wide configuration file is read as its UTF-8 text is, with the same exceptions; the results can always be decoded, and
decode to what the narrow parser found. -/
theorem C73_wide_config (env : Env) (text : WStr) (hw : ∀ x ∈ text, x < 2 ^ 31) (desc : List OptionDesc) (allow : Bool) :
    ∃ t, env.withUtf8.toUtf8 text = some t ∧
      (∀ f, parseConfigFile t desc allow = .error f → wparseConfigFile env.withUtf8 text desc allow = .error f) ∧
      ∀ p, parseConfigFile t desc allow = .ok p → ∃ wp, wparseConfigFile env.withUtf8 text desc allow = .ok wp ∧ wp.utf8 = p ∧
        List.Forall₂ (Decodes env.withUtf8) p.options wp.options := by
  have hlines : getlines '\n' (utf8Text text) = (wgetlinesAux 10 text []).map utf8Text := wgetlines_eq text [] hw
  refine ⟨utf8Text text, withUtf8_to env text, ?_, ?_⟩
  · intro f hf
    unfold parseConfigFile at hf
    unfold wparseConfigFile
    split at hf
    · cases hf; rfl
    · split at hf
      · rename_i e; cases hf; rfl
      · rename_i e
        rw [wlines_eq, ← hlines]
        split at hf
        · rename_i e; cases hf; rfl
        · cases hf
  · intro p hf
    unfold parseConfigFile at hf
    unfold wparseConfigFile
    split at hf
    · cases hf
    · split at hf
      · cases hf
      · rename_i it e
        rw [wlines_eq, ← hlines]
        split at hf
        · cases hf
        · rename_i os e
          cases hf
          have henc := lines_encoded it [] .nil _ (by
            intro l hl
            rw [hlines] at hl
            obtain ⟨w, h1, rfl⟩ := List.mem_map.1 hl
            exact ⟨w, wgetlines_chars text [] hw nofun w h1, rfl⟩) os e
          have key : ∀ o ∈ os, ∃ wo, wopt env.withUtf8 o = .ok wo ∧ Decodes env.withUtf8 o wo := by
            intro o ho
            obtain ⟨h1, h2⟩ := henc o ho
            obtain ⟨vs, h3, h4, h5⟩ := mapM_back env o.value h1
            obtain ⟨ts, h6, h7, h8⟩ := mapM_back env o.originalTokens h2
            refine ⟨_, by unfold wopt; rw [h3, h6], rfl, rfl, rfl, ?_, ?_⟩
            · exact (mapM_utf8Text env vs).trans (by rw [h4])
            · exact (mapM_utf8Text env ts).trans (by rw [h7])
          obtain ⟨wos, h1, h2⟩ := mapOk_get _ _ os key
          unfold Parsed.toWide
          dsimp only
          rw [h1]
          exact ⟨_, rfl, rfl, h2⟩

/-- A section, a value and a comment outside ASCII. -/
def wideConfigExample : WStr := ("[i]\nout = é # ü\n".toList).map Char.toNat

example : ∃ wp, wparseConfigFile Test.env.withUtf8 wideConfigExample [Test.od "i.out" (Test.sem Test.vstr) "" ] = .ok wp ∧
    wp.options.map (·.value) = [[['é'.toNat]]] := ⟨_, rfl, rfl⟩

end PO
