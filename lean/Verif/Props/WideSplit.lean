import Verif.Model.WideSplit
import Verif.Props.SplitGrammar
import Verif.Props.WideConfig
/-
C79: splitting a wide line.
-/
namespace PO
open Spec

/-! ### Unix -/

section
variable {sep quote esc : Str}

/-- Characters that are not special go into the field. -/
theorem tokenize_ordinary (a s cur : Str) (q : Bool) (h : ∀ y ∈ a, y ∉ sep ∧ y ∉ quote ∧ y ∉ esc) :
    tokenizeFields sep quote esc (a ++ s) q cur = tokenizeFields sep quote esc s q (cur ++ a) := by
  induction a generalizing cur with
  | nil => simp
  | cons y a ih =>
    obtain ⟨h1, h2, h3⟩ := h y (by simp)
    rw [List.cons_append, tokenize_plain y h3, if_neg (fun h => h1 h.1), if_neg h1, if_neg h2, ih _ fun z hz => h z (by simp [hz])]
    simp

theorem toNat_mem {x : Nat} {s : Str} (hx : x < 128) : x ∈ s.map Char.toNat ↔ Char.ofNat x ∈ s := by
  rw [List.mem_map]
  constructor
  · rintro ⟨c, hc, rfl⟩
    simpa using hc
  · intro h
    exact ⟨_, h, toNat_ofNat_small (by omega)⟩

theorem high_not_mem {x : Nat} {s : Str} (hs : ∀ c ∈ s, c.toNat < 128) (hx : 128 ≤ x) : x ∉ s.map Char.toNat := by
  intro h
  obtain ⟨c, hc, rfl⟩ := List.mem_map.1 h
  have := hs c hc
  omega

/-- The first octet of a wide character that is not ASCII, and the others. -/
theorem high_cons (x : Nat) (h : 128 ≤ x) (hx : x < 2 ^ 31) : ∃ y ys, octetsToStr (encodeChar x) = y :: ys ∧ 128 ≤ y.toNat ∧ ∀ z ∈ ys, 128 ≤ z.toNat := by
  have := octetsToStr_high x h hx
  cases e : octetsToStr (encodeChar x) with
  | nil => simp [octetsToStr, encodeChar] at e
  | cons y ys => rw [e] at this; exact ⟨y, ys, rfl, this y (by simp), fun z hz => this z (by simp [hz])⟩

theorem wtokenize_plain {sep quote esc : WStr} (c : Nat) (hc : c ∉ esc) (cs : WStr) (inQ : Bool) (cur : WStr) :
    wtokenizeFields sep quote esc (c :: cs) inQ cur =
      if c ∈ sep ∧ inQ = false then
        match wtokenizeFields sep quote esc cs false [] with
        | .error f => .error f
        | .ok fs => .ok (cur :: fs)
      else if c ∈ sep then wtokenizeFields sep quote esc cs inQ (cur ++ [c])
      else if c ∈ quote then wtokenizeFields sep quote esc cs (!inQ) cur
      else wtokenizeFields sep quote esc cs inQ (cur ++ [c]) := by
  cases cs <;> cases inQ <;> by_cases h1 : c ∈ sep <;> by_cases h2 : c ∈ quote <;>
    simp [wtokenizeFields, h1, h2, hc] <;> rfl

theorem wtokenize_eq (h1 : ∀ c ∈ sep, c.toNat < 128) (h2 : ∀ c ∈ quote, c.toNat < 128) (h3 : ∀ c ∈ esc, c.toNat < 128)
    (n : Nat) (s : WStr) (hn : s.length ≤ n) (hw : Wchars s) (q : Bool) (cur : WStr) :
    tokenizeFields sep quote esc (utf8Text s) q (utf8Text cur) =
      (wtokenizeFields (sep.map Char.toNat) (quote.map Char.toNat) (esc.map Char.toNat) s q cur).map (·.map utf8Text) := by
  induction n generalizing s q cur with
  | zero =>
    have : s = [] := List.eq_nil_of_length_eq_zero (by omega)
    subst this
    rfl
  | succ n ih =>
    cases s with
    | nil => rfl
    | cons x s =>
      have hx := hw x (by simp)
      have hs : Wchars s := fun y hy => hw y (by simp [hy])
      have hl : s.length ≤ n := by simpa using hn
      by_cases hx1 : x < 128
      · rw [utf8Text_ascii x hx1]
        have e1 : utf8Text (cur ++ [x]) = utf8Text cur ++ [Char.ofNat x] := by
          rw [utf8Text_append, utf8Text_ascii x hx1]; rfl
        have ih1 := fun q => ih s hl hs q (cur ++ [x])
        rw [e1] at ih1
        by_cases he : Char.ofNat x ∈ esc
        · have he' := (toNat_mem hx1).2 he
          cases s with
          | nil => simp [wtokenizeFields, he', utf8Text, octetsToStr, tokenizeFields, he, Except.map]
          | cons y s =>
            have hy := hs y (by simp)
            have hs' : Wchars s := fun z hz => hs z (by simp [hz])
            have hl' : s.length ≤ n := by simp at hl; omega
            rw [wtokenizeFields]
            simp only [List.elem_eq_mem, he', decide_true, if_true]
            by_cases hy1 : y < 128
            · rw [utf8Text_ascii y hy1, tokenizeFields]
              simp only [List.elem_eq_mem, he, decide_true, if_true]
              by_cases hyn : y = 'n'.toNat
              · subst hyn
                have := ih s hl' hs' q (cur ++ ['\n'.toNat])
                rw [utf8Text_append, utf8Text_ascii _ (by decide)] at this
                rw [if_pos (by decide), if_pos rfl, ← this]
                rfl
              · have hyn' : Char.ofNat y ≠ 'n' := by
                  intro h
                  have := congrArg Char.toNat h
                  rw [toNat_ofNat_small (by omega)] at this
                  exact hyn this
                rw [if_neg hyn, if_neg hyn']
                simp only [toNat_mem hy1]
                split
                · have := ih s hl' hs' q (cur ++ [y])
                  rw [utf8Text_append, utf8Text_ascii _ hy1] at this
                  rw [← this]
                  rfl
                · rfl
            · obtain ⟨z, zs, e, hz, -⟩ := high_cons y (by omega) hy
              rw [utf8Text_cons, e, List.cons_append, tokenizeFields]
              have hzn : z ≠ 'n' := by rintro rfl; revert hz; decide
              have hyn : y ≠ 'n'.toNat := by rintro rfl; exact hy1 (by decide)
              have hz1 : z ∉ sep := fun h => by have := h1 z h; omega
              have hz2 : z ∉ quote := fun h => by have := h2 z h; omega
              have hz3 : z ∉ esc := fun h => by have := h3 z h; omega
              simp only [List.elem_eq_mem, he, decide_true, if_true, if_neg hzn, if_neg hyn, hz1, hz2, hz3,
                high_not_mem h1 (Nat.le_of_not_lt hy1), high_not_mem h2 (Nat.le_of_not_lt hy1), high_not_mem h3 (Nat.le_of_not_lt hy1)]
              rfl
        · rw [tokenize_plain _ he, wtokenize_plain _ (fun h => he ((toNat_mem hx1).1 h))]
          simp only [toNat_mem hx1]
          by_cases hsep : Char.ofNat x ∈ sep
          · cases q
            · have := ih s hl hs false []
              rw [show utf8Text [] = ([] : Str) from rfl] at this
              simp only [hsep, and_self, if_true, this]
              cases wtokenizeFields (sep.map Char.toNat) (quote.map Char.toNat) (esc.map Char.toNat) s false [] <;> rfl
            · simp only [hsep, Bool.true_eq_false, and_false, if_false, if_true, ih1]
          · simp only [hsep, false_and, if_false]
            split
            · exact ih s hl hs _ cur
            · exact ih1 q
      · have hx1 := Nat.le_of_not_lt hx1
        have e1 : utf8Text cur ++ octetsToStr (encodeChar x) = utf8Text (cur ++ [x]) := by
          rw [utf8Text_append]; simp [utf8Text, octetsToStr]
        rw [utf8Text_cons, tokenize_ordinary, e1, ih s hl hs q (cur ++ [x]), wtokenize_plain _ (high_not_mem h3 hx1)]
        · rw [if_neg (fun h => high_not_mem h1 hx1 h.1), if_neg (high_not_mem h1 hx1), if_neg (high_not_mem h2 hx1)]
        · intro y hy
          have := octetsToStr_high x hx1 hx y hy
          exact ⟨fun h => by have := h1 y h; omega, fun h => by have := h2 y h; omega, fun h => by have := h3 y h; omega⟩

end

/-- **C79, Unix:** splitting a wide line at ASCII separators is splitting its UTF-8 text. -/
theorem C79_wide_unix (env : Env) (sep quote esc : Str) (h1 : ∀ c ∈ sep, c.toNat < 128) (h2 : ∀ c ∈ quote, c.toNat < 128)
    (h3 : ∀ c ∈ esc, c.toNat < 128) (s : WStr) (hw : ∀ x ∈ s, x < 2 ^ 31) :
    ∃ t, env.withUtf8.toUtf8 s = some t ∧
      (∀ f, wsplitUnix s (sep.map Char.toNat) (quote.map Char.toNat) (esc.map Char.toNat) = .error f ↔ splitUnix t sep quote esc = .error f) ∧
      ∀ args, wsplitUnix s (sep.map Char.toNat) (quote.map Char.toNat) (esc.map Char.toNat) = .ok args →
        ∃ as, args.mapM env.withUtf8.toUtf8 = some as ∧ splitUnix t sep quote esc = .ok as := by
  refine ⟨_, withUtf8_to env s, ?_⟩
  have := wtokenize_eq h1 h2 h3 s.length s (Nat.le_refl _) hw false []
  rw [show utf8Text [] = ([] : Str) from rfl] at this
  unfold splitUnix wsplitUnix
  rw [this]
  cases wtokenizeFields (sep.map Char.toNat) (quote.map Char.toNat) (esc.map Char.toNat) s false [] with
  | error f => exact ⟨fun f' => ⟨fun e => by cases e; rfl, fun e => by cases e; rfl⟩, nofun⟩
  | ok fs =>
    refine ⟨fun f => ⟨nofun, nofun⟩, ?_⟩
    intro args e
    cases e
    refine ⟨_, mapM_utf8Text env _, ?_⟩
    simp only [Except.map]
    congr 1
    induction fs with
    | nil => rfl
    | cons f fs ih =>
      by_cases hf : f = []
      · subst hf; simpa [utf8Text, octetsToStr] using ih
      · have : utf8Text f ≠ [] := fun h => hf (utf8Text_eq_nil.1 h)
        simpa [hf, this] using ih

/-- Separators, quotes and escapes, and characters of two octets. -/
example : wsplitUnix [233, 32, 39, 252, 32, 246, 39, 92, 110, 32, 34, 34, 32, 120, 92, 32, 121] = .ok [[233], [252, 32, 246, 10], [120, 32, 121]] := by rfl

example : wsplitUnix [97, 32, 92, 233] = .error .escapedList := by rfl

/-! ### Windows -/

/-- Octets that are not special. -/
theorem winArg_ordinary {a s t : Str} {q q' : Bool} (ha : ∀ y ∈ a, 128 ≤ y.toNat) (h : WinArg '\\' '"' blanks q s t q') :
    WinArg '\\' '"' blanks q (a ++ s) (a ++ t) q' := by
  induction a with
  | nil => exact h
  | cons y a ih =>
    have hy := ha y (by simp)
    have := ih fun z hz => ha z (by simp [hz])
    refine .cons (s := [y]) (t := [y]) (.other 0 y ?_ ?_ (.inr ?_)) this
    · rintro rfl; revert hy; decide
    · rintro rfl; revert hy; decide
    · intro hb
      have : ∀ c ∈ blanks, c.toNat < 128 := by decide
      have := this y hb
      omega

theorem utf8Text_replicate (n : Nat) (x : Nat) (hx : x < 128) (s : WStr) : utf8Text (List.replicate n x ++ s) = List.replicate n (Char.ofNat x) ++ utf8Text s := by
  induction n with
  | zero => rfl
  | succ n ih => rw [List.replicate_succ, List.replicate_succ, List.cons_append, List.cons_append, utf8Text_ascii x hx, ih]

theorem winArg_utf8 {s t : WStr} {q q' : Bool} (hw : Wchars s) (h : WinArg '\\'.toNat '"'.toNat (blanks.map Char.toNat) q s t q') :
    WinArg '\\' '"' blanks q (utf8Text s) (utf8Text t) q' := by
  induction h with
  | nil n =>
    have := utf8Text_replicate n '\\'.toNat (by decide) []
    rw [List.append_nil, show utf8Text [] = ([] : Str) from rfl, List.append_nil] at this
    rw [this]
    exact .nil n
  | @cons q q' q'' s t s' t' h hs ih =>
    have ih := ih fun x hx => hw x (by simp [hx])
    have hbs : Char.ofNat '\\'.toNat = '\\' := rfl
    cases h with
    | quote n =>
      rw [List.append_assoc, utf8Text_replicate n _ (by decide), utf8Text_replicate _ _ (by decide), List.singleton_append,
        utf8Text_ascii _ (by decide)]
      have := WinArg.cons (WinPiece.quote (bs := '\\') (qt := '"') (blank := blanks) (q := q) n) ih
      rwa [List.append_assoc] at this
    | literal n =>
      rw [List.append_assoc, List.append_assoc, utf8Text_replicate n _ (by decide), utf8Text_replicate _ _ (by decide), List.singleton_append, List.singleton_append,
        utf8Text_ascii _ (by decide), utf8Text_ascii _ (by decide)]
      have := WinArg.cons (WinPiece.literal (bs := '\\') (qt := '"') (blank := blanks) (q := q) n) ih
      rwa [List.append_assoc, List.append_assoc] at this
    | other n c h1 h2 h =>
      have hc := hw c (by simp)
      rw [List.append_assoc, List.append_assoc, utf8Text_replicate n _ (by decide), utf8Text_replicate _ _ (by decide), List.singleton_append, List.singleton_append]
      by_cases hc1 : c < 128
      · rw [utf8Text_ascii _ hc1, utf8Text_ascii _ hc1]
        have hne : ∀ d : Char, c ≠ d.toNat → Char.ofNat c ≠ d := by
          rintro d h rfl
          rw [toNat_ofNat_small (by omega)] at h
          exact h rfl
        have := WinArg.cons (WinPiece.other (bs := '\\') (qt := '"') (blank := blanks) (q := q) n (Char.ofNat c) (hne _ h1) (hne _ h2)
          (h.imp id fun h hb => h ((toNat_mem hc1).2 hb))) ih
        rwa [List.append_assoc, List.append_assoc] at this
      · obtain ⟨y, ys, e, hy, hys⟩ := high_cons c (by omega) hc
        rw [utf8Text_cons, utf8Text_cons, e]
        have hb : y ∉ blanks := by
          intro hb
          have : ∀ c ∈ blanks, c.toNat < 128 := by decide
          have := this y hb
          omega
        have := WinArg.cons (WinPiece.other (bs := '\\') (qt := '"') (blank := blanks) (q := q) n y
          (by rintro rfl; revert hy; decide) (by rintro rfl; revert hy; decide) (.inr hb)) (winArg_ordinary hys ih)
        rwa [List.append_assoc, List.append_assoc] at this

theorem winArg_chars {s t : WStr} {q q' : Bool} (hw : Wchars s) (h : WinArg '\\'.toNat '"'.toNat (blanks.map Char.toNat) q s t q') : Wchars t := by
  induction h with
  | nil n => exact hw
  | @cons q q' q'' s t s' t' h hs ih =>
    have ih := ih fun x hx => hw x (by simp [hx])
    have ht : Wchars t := by
      have hrep : ∀ n, ∀ x ∈ List.replicate n '\\'.toNat, x < 2 ^ 31 := by
        intro n x hx
        rw [(List.mem_replicate.1 hx).2]
        decide
      cases h with
      | quote n => exact hrep n
      | literal n =>
        intro x hx
        rcases List.mem_append.1 hx with hx | hx
        · exact hrep n x hx
        · rw [List.mem_singleton] at hx; subst hx; decide
      | other n c => exact fun x hx => hw x (by simp at hx ⊢; exact hx.imp_right Or.inl |>.elim Or.inl (fun h => Or.inr h))
    intro x hx
    rcases List.mem_append.1 hx with hx | hx
    · exact ht x hx
    · exact ih x hx

theorem winReads_utf8 {s : WStr} {args : List WStr} (hw : Wchars s) (h : WinReads '\\'.toNat '"'.toNat (blanks.map Char.toNat) s args) :
    WinReads '\\' '"' blanks (utf8Text s) (args.map utf8Text) ∧ ∀ a ∈ args, Wchars a := by
  have hblank : ∀ c ∈ blanks.map Char.toNat, c < 128 ∧ Char.ofNat c ∈ blanks := by
    have : ∀ c ∈ blanks.map Char.toNat, c < 128 := by decide
    exact fun c hc => ⟨this c hc, (toNat_mem (this c hc)).1 hc⟩
  induction h with
  | nil => exact ⟨.nil, nofun⟩
  | blank hc h ih =>
    obtain ⟨h1, h2⟩ := ih fun x hx => hw x (by simp [hx])
    rw [utf8Text_ascii _ (hblank _ hc).1]
    exact ⟨.blank (hblank _ hc).2 h1, h2⟩
  | last h hne =>
    refine ⟨.last (winArg_utf8 hw h) fun h => hne (utf8Text_eq_nil.1 h), ?_⟩
    intro a ha
    rw [List.mem_singleton] at ha
    subst ha
    exact winArg_chars hw h
  | @arg s t c rest args h hne hc hr ih =>
    obtain ⟨h1, h2⟩ := ih fun x hx => hw x (by simp [hx])
    have hs : Wchars s := fun x hx => hw x (by simp [hx])
    rw [utf8Text_append, utf8Text_ascii _ (hblank _ hc).1]
    refine ⟨.arg (winArg_utf8 hs h) (fun h => hne (utf8Text_eq_nil.1 h)) (hblank _ hc).2 h1, ?_⟩
    intro a ha
    rcases List.mem_cons.1 ha with rfl | ha
    · exact winArg_chars hs h
    · exact h2 a ha

/-- **C79, Windows:** a wide line is split by the same rules, and the conversions never fail. -/
theorem C79_wide_winmain (env : Env) (s : WStr) (hw : ∀ x ∈ s, x < 2 ^ 31) (res : Except Fail (List WStr)) :
    wsplitWinmain env.withUtf8 s = res ↔ ∃ args, res = .ok args ∧ WinReads '\\'.toNat '"'.toNat (blanks.map Char.toNat) s args := by
  have key : ∀ args, WinReads '\\'.toNat '"'.toNat (blanks.map Char.toNat) s args → wsplitWinmain env.withUtf8 s = .ok args := by
    intro args h
    obtain ⟨h1, h2⟩ := winReads_utf8 hw h
    unfold wsplitWinmain
    rw [withUtf8_to]
    simp only
    rw [(C78_winmain_grammar _ _).2 h1]
    have : (args.map utf8Text).mapM env.withUtf8.fromUtf8 = some args := by
      clear h h1
      induction args with
      | nil => rfl
      | cons a args ih =>
        rw [List.map_cons, List.mapM_cons, withUtf8_from env a (h2 a (by simp)), ih fun b hb => h2 b (by simp [hb])]
        rfl
    rw [this]
  constructor
  · rintro rfl
    obtain ⟨args, h⟩ := win_total '\\'.toNat '"'.toNat (blanks.map Char.toNat) s.length s (Nat.le_refl _)
    exact ⟨args, key args h, h⟩
  · rintro ⟨args, rfl, h⟩
    exact key args h

/-- A quoted argument, an empty one, one with a quote and backslashes, and one whose quotes are not closed. -/
example : WinReads '\\'.toNat '"'.toNat (blanks.map Char.toNat) [34, 233, 32, 252, 34, 32, 34, 34, 32, 92, 92, 92, 34, 92, 32, 34, 246, 32]
    [[233, 32, 252], [], [92, 34, 92], [246, 32]] := by
  have h : wsplitWinmain Test.env.withUtf8 [34, 233, 32, 252, 34, 32, 34, 34, 32, 92, 92, 92, 34, 92, 32, 34, 246, 32] =
      .ok [[233, 32, 252], [], [92, 34, 92], [246, 32]] := by rfl
  obtain ⟨args, e, hr⟩ := (C79_wide_winmain Test.env _ (by decide) _).1 h
  cases e
  exact hr

end PO
