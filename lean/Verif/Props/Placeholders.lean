import Verif.Props.Exception
/-
C135: which placeholders are left in a message.
-/
namespace PO
namespace Exception
open Spec

/-- Replacing one parameter in a word. -/
def wordStep (k v : Str) : Slot → Slot
  | .text s => .text s
  | .hole b k' a => if k' = k then .text (b ++ v ++ a) else .hole b k' a

theorem not_infix_other {k k' b a : Str} (hb : '%' ∉ b) (hk : '%' ∉ k) (hk' : '%' ∉ k') (ha : '%' ∉ a) (hne : k' ≠ k) :
    ¬ placeholder k <:+: b ++ placeholder k' ++ a := by
  rintro ⟨u, w, e⟩
  have hc := congrArg (List.count '%') e
  have h0 : ∀ {x : Str}, '%' ∉ x → x.count '%' = 0 := fun h => List.count_eq_zero.2 h
  simp only [List.count_append, placeholder, List.count_cons, h0 hb, h0 hk, h0 hk', h0 ha, List.count_nil] at hc
  have hu : '%' ∉ u := List.count_eq_zero.1 (by simp at hc; omega)
  have split : ∀ {x y x' y' : Str}, '%' ∉ x → '%' ∉ x' → x ++ '%' :: y = x' ++ '%' :: y' → x = x' ∧ y = y' := by
    intro x y x' y' hx hx' e
    induction x generalizing x' with
    | nil =>
      cases x' with
      | nil => simpa using e
      | cons c x' => simp at e hx'; exact absurd e.1 hx'.1
    | cons c x ih =>
      cases x' with
      | nil => simp at e hx; exact absurd e.1.symm hx.1
      | cons c' x' =>
        simp only [List.cons_append, List.cons.injEq] at e
        simp only [List.mem_cons, not_or] at hx hx'
        obtain ⟨e1, e2⟩ := ih hx.2 hx'.2 e.2
        exact ⟨by rw [e.1, e1], e2⟩
  have e1 : u ++ '%' :: (k ++ '%' :: w) = b ++ '%' :: (k' ++ '%' :: a) := by
    simpa [placeholder] using e
  obtain ⟨_, e2⟩ := split hu hb e1
  exact hne (split hk hk' e2).1.symm

theorem not_infix_clean (k : Str) {s : Str} (h : '%' ∉ s) : ¬ placeholder k <:+: s :=
  not_infix_of_not_mem (c := '%') (by simp [placeholder]) h

theorem findSub_hole {k b a : Str} (hb : '%' ∉ b) : findSub (b ++ placeholder k ++ a) (placeholder k) = some b.length := by
  induction b with
  | nil => exact (findSub_eq_zero _ _).2 (by simp)
  | cons c b ih =>
    simp only [List.mem_cons, not_or] at hb
    rw [List.cons_append, List.cons_append, findSub, if_neg, ih hb.2]
    · rfl
    · intro h
      have h := List.isPrefixOf_iff_prefix.1 h
      simp only [placeholder, List.cons_append, List.cons_prefix_cons] at h
      exact hb.1 h.1

theorem proper_step {k v : Str} {w : Slot} (hv : '%' ∉ v) (h : w.Proper) : (wordStep k v w).Proper := by
  cases w with
  | text s => exact h
  | hole b k' a =>
    by_cases e : k' = k
    · simp only [wordStep, if_pos e]
      show '%' ∉ b ++ v ++ a
      simp [h.1, h.2.2, hv]
    · simp only [wordStep, if_neg e]; exact h

theorem word_clean {k v : Str} {w : Slot} (hk : '%' ∉ k) (hv : '%' ∉ v) (h : w.Proper) : ¬ placeholder k <:+: (wordStep k v w).written := by
  cases w with
  | text s => exact not_infix_clean k h
  | hole b k' a =>
    by_cases e : k' = k
    · simp only [wordStep, if_pos e]
      exact not_infix_clean k (by show '%' ∉ b ++ v ++ a; simp [h.1, h.2.2, hv])
    · simp only [wordStep, if_neg e]
      exact not_infix_other h.1 hk h.2.1 h.2.2 e

theorem word_replace {k v : Str} {w : Slot} (hk : '%' ∉ k) (hv : '%' ∉ v) (h : w.Proper) :
    replaceToken 1 w.written (placeholder k) v = some (wordStep k v w).written := by
  have hc := word_clean hk hv h
  cases w with
  | text s => exact replaceToken_none hc
  | hole b k' a =>
    by_cases e : k' = k
    · subst e
      simp only [wordStep, if_true] at hc ⊢
      show replaceToken 1 (b ++ placeholder k' ++ a) (placeholder k') v = some (b ++ v ++ a)
      unfold replaceToken
      rw [findSub_hole h.1]
      dsimp only
      have : (b ++ placeholder k' ++ a).take b.length ++ v ++ (b ++ placeholder k' ++ a).drop (b.length + (placeholder k').length) = b ++ v ++ a := by
        rw [List.append_assoc b, List.take_left, ← List.drop_drop, List.drop_left, List.drop_left]
      rw [this]
      exact replaceToken_none hc
    · simp only [wordStep, if_neg e] at hc ⊢
      exact replaceToken_none hc

/-- Replacing one parameter in a sentence. -/
def sentenceStep (k v : Str) (s : Sentence) : Sentence :=
  { words := s.words.map fun p => (wordStep k v p.1, p.2), last := wordStep k v s.last }

theorem safe_step {k v k' : Str} {s : Sentence} (h : s.Safe k') : (sentenceStep k v s).Safe k' := by
  refine ⟨h.percent, fun p hp => ?_⟩
  obtain ⟨q, hq, rfl⟩ := List.mem_map.1 hp
  exact h.between q hq

theorem sentence_proper_step {k v : Str} {s : Sentence} (hv : '%' ∉ v) (h : s.Proper) : (sentenceStep k v s).Proper := by
  refine ⟨fun p hp => ?_, proper_step hv h.last⟩
  obtain ⟨q, hq, rfl⟩ := List.mem_map.1 hp
  exact ⟨proper_step hv (h.words q hq).1, (h.words q hq).2⟩

theorem sentence_replace {k v : Str} (hv : '%' ∉ v) (last : Slot) (hl : last.Proper) (ws : List (Slot × Char))
    (h : ∀ p ∈ ws, p.1.Proper ∧ p.2 ≠ '%') (hs : '%' ∉ k ∧ ∀ p ∈ ws, p.2 ∉ k) :
    replaceToken (ws.length + 1) (Sentence.written ⟨ws, last⟩) (placeholder k) v = some (sentenceStep k v ⟨ws, last⟩).written := by
  induction ws with
  | nil => exact word_replace hs.1 hv hl
  | cons p ws ih =>
    obtain ⟨w, q⟩ := p
    have hw := h (w, q) List.mem_cons_self
    have hq : q ∉ placeholder k := by
      simp only [placeholder, List.mem_append, List.mem_cons, List.not_mem_nil, or_false, not_or]
      exact ⟨⟨hw.2, hs.2 (w, q) List.mem_cons_self⟩, hw.2⟩
    have := replaceToken_append (placeholder_ne k) hq 1 (ws.length + 1) _ _ v _ _ (word_replace hs.1 hv hw.1)
      (ih (fun p hp => h p (List.mem_cons_of_mem _ hp)) ⟨hs.1, fun p hp => hs.2 p (List.mem_cons_of_mem _ hp)⟩)
      (word_clean hs.1 hv hw.1)
    rw [List.length_cons, Nat.add_comm (ws.length + 1) 1]
    simpa [Sentence.written, Sentence.map, sentenceStep] using this

theorem filled_step (k v : Str) (ss : SMap Str) (hk : ∀ p ∈ ss, p.1 ≠ k) (w : Slot) :
    (wordStep k v w).filled (SMap.get? ss) = w.filled (SMap.get? ((k, v) :: ss)) := by
  cases w with
  | text s => rfl
  | hole b k' a =>
    unfold wordStep
    by_cases e : k' = k
    · subst e; simp [Slot.filled, SMap.get?]
    · simp [Slot.filled, SMap.get?, e, Ne.symm e]

theorem filled_nil (w : Slot) : w.filled (SMap.get? ([] : SMap Str)) = w.written := by
  cases w <;> rfl

/-- The second loop of `substitute_placeholders`. -/
theorem applySubsts_sentence (ss : SMap Str) (hss : ss.Sorted) (s : Sentence) (hp : s.Proper) (hv : ∀ p ∈ ss, '%' ∉ p.2)
    (hk : ∀ p ∈ ss, s.Safe p.1) (f : Nat) (hf : s.words.length + 1 ≤ f) :
    applySubsts f ss s.written = some (s.filled (SMap.get? ss)) := by
  induction ss generalizing s with
  | nil =>
    rw [applySubsts]
    exact congrArg (fun f => some (Sentence.map f s)) (funext fun w => (filled_nil w).symm)
  | cons p ss ih =>
    obtain ⟨k, v⟩ := p
    rw [SMap.Sorted, List.pairwise_cons] at hss
    have hv1 := hv (k, v) List.mem_cons_self
    have hk1 := hk (k, v) List.mem_cons_self
    have hr := replaceToken_mono (f - (s.words.length + 1)) (sentence_replace hv1 s.last hp.last s.words hp.words ⟨hk1.percent, hk1.between⟩)
    rw [Nat.add_sub_cancel' hf] at hr
    rw [applySubsts]
    have hpl : '%' :: k ++ ['%'] = placeholder k := rfl
    have hse : (⟨s.words, s.last⟩ : Sentence) = s := rfl
    rw [hse] at hr
    rw [hpl, hr]
    dsimp only
    rw [ih hss.2 _ (sentence_proper_step hv1 hp) (fun p hp => hv p (List.mem_cons_of_mem _ hp))
      (fun p hp => safe_step (hk p (List.mem_cons_of_mem _ hp))) (by simpa [sentenceStep] using hf)]
    congr 1
    have hne : ∀ p ∈ ss, p.1 ≠ k := fun p hp e => strLt_ne (hss.1 p hp) e.symm
    simp only [Sentence.filled, Sentence.map, sentenceStep, List.flatMap_map, filled_step k v ss hne]

theorem applyDefaults_none (f : Nat) (su : SMap Str) (ds : SMap (Str × Str)) (t : Str)
    (h : ∀ d ∈ ds, (SMap.get? su d.1).getD [] = [] → ¬ d.2.1 <:+: t) : applyDefaults f su ds t = some t := by
  induction ds with
  | nil => rfl
  | cons d ds ih =>
    obtain ⟨k, src, dst⟩ := d
    have ih := ih fun d hd => h d (List.mem_cons_of_mem _ hd)
    rw [applyDefaults]
    by_cases e : (SMap.get? su k).getD [] = []
    · rw [if_pos e, replaceToken_none (h (k, src, dst) List.mem_cons_self e)]
      exact ih
    · rw [if_neg e]; exact ih

theorem percent_stripPrefixes {x : Str} (h : '%' ∉ x) : '%' ∉ stripPrefixes x := by
  unfold stripPrefixes
  split
  · exact h
  · exact fun hm => h ((List.dropWhile_sublist _).subset hm)

theorem percent_prefix {o : Obj} {pre : Str} (h : optionPrefix o = some pre) : '%' ∉ pre := by
  unfold optionPrefix at h
  repeat' split at h
  all_goals first | (injection h with h; subst h; simp) | exact nomatch h

theorem percent_name {o : Obj} {name : Str} (h1 : '%' ∉ text o (str% "option")) (h2 : '%' ∉ text o (str% "original_token"))
    (h : optionName o = some name) : '%' ∉ name := by
  have hp : ∀ {x : Str}, '%' ∉ x → (optionPrefix o).map (· ++ x) = some name → '%' ∉ name := by
    intro x hx e
    cases hpre : optionPrefix o with
    | none => rw [hpre] at e; exact nomatch e
    | some pre =>
      rw [hpre, Option.map_some] at e
      injection e with e
      subst e
      simp [percent_prefix hpre, hx]
  unfold optionName at h
  dsimp only at h
  split at h
  · injection h with h; exact h ▸ h2
  · split at h
    · exact hp (percent_stripPrefixes h1) h
    · split at h
      · rename_i c r hc
        split at h
        · refine hp ?_ h
          have := percent_stripPrefixes h2
          rw [hc] at this
          simp only [List.mem_cons, not_or] at this
          simpa using this.1
        · injection h with h; exact h ▸ percent_stripPrefixes h1
      · injection h with h; exact h ▸ percent_stripPrefixes h1

theorem get?_construct (alts : Option (List Str)) (named : Bool) (t option token : Str) (style : Nat) (k : Str) :
    SMap.get? (construct alts named t option token style).subst k =
      if k = str% "original_token" then some token else if k = str% "option" then some option else none := by
  show SMap.get? (SMap.set (SMap.set [] (str% "option") option) (str% "original_token") token) k = _
  rw [SMap.get?_set, SMap.get?_set]
  by_cases e1 : k = str% "original_token"
  · subst e1; rfl
  · by_cases e2 : k = str% "option"
    · subst e2; rfl
    · rw [if_neg (Ne.symm e1), if_neg (Ne.symm e2), if_neg e1, if_neg e2]; rfl

theorem default_construct (alts : Option (List Str)) (named : Bool) (t option token : Str) (style : Nat) (cs : List Call) (k : Str) :
    (toldLast (tellsDefault k) cs).or (SMap.get? (construct alts named t option token style).defaults k) = defaultFor cs k := by
  unfold defaultFor
  congr 1
  show SMap.get? (SMap.set (SMap.set (SMap.set [] (str% "canonical_option") _) (str% "value") _) (str% "prefix") _) k = _
  rw [SMap.get?_set, SMap.get?_set, SMap.get?_set]
  by_cases h1 : k = str% "prefix"
  · subst h1; rfl
  · by_cases h2 : k = str% "value"
    · subst h2; rfl
    · by_cases h3 : k = str% "canonical_option"
      · subst h3; rfl
      · rw [if_neg (Ne.symm h1), if_neg (Ne.symm h2), if_neg (Ne.symm h3), if_neg h3, if_neg h2, if_neg h1]; rfl

theorem findSub_least {s p : Str} {i : Nat} (h : findSub s p = some i) : ∀ a, a ++ p <+: s → i ≤ a.length := by
  induction s generalizing i with
  | nil =>
    simp only [findSub] at h
    split at h
    · cases h; exact fun a _ => Nat.zero_le _
    · cases h
  | cons x xs ih =>
    simp only [findSub] at h
    split at h
    · cases h; exact fun a _ => Nat.zero_le _
    · rename_i hp
      simp only [Option.map_eq_some_iff] at h
      obtain ⟨j, hj, rfl⟩ := h
      intro a ha
      cases a with
      | nil => exact absurd (List.isPrefixOf_iff_prefix.2 ha) hp
      | cons y a =>
        rw [List.cons_append, List.cons_prefix_cons] at ha
        have := ih hj a ha.2
        simp; omega

theorem replaceToken_iff (src dst t r : Str) : (∃ f, replaceToken f t src dst = some r) ↔ Reworded src dst t r := by
  constructor
  · rintro ⟨f, h⟩
    induction f generalizing t with
    | zero =>
      unfold replaceToken at h
      cases hf : findSub t src with
      | none => rw [hf] at h; cases h; exact .done (findSub_eq_none.1 hf)
      | some i => rw [hf] at h; exact nomatch h
    | succ f ih =>
      unfold replaceToken at h
      cases hf : findSub t src with
      | none => rw [hf] at h; cases h; exact .done (findSub_eq_none.1 hf)
      | some i =>
        rw [hf] at h
        have hr := ih _ h
        have e := findSub_eq_some hf
        have hl := findSub_least hf
        have hi : (t.take i).length ≤ i := List.length_take_le _ _
        rw [e] at hl ⊢
        generalize t.take i = a at *
        generalize t.drop (i + src.length) = b at *
        exact .first a b (fun a' h' => Nat.le_trans hi (hl a' h')) hr
  · intro h
    induction h with
    | done h => exact ⟨0, replaceToken_none h⟩
    | @first r a b h _ ih =>
      obtain ⟨f, ih⟩ := ih
      refine ⟨f + 1, ?_⟩
      unfold replaceToken
      cases hf : findSub (a ++ src ++ b) src with
      | none => exact absurd (⟨a, b, rfl⟩ : src <:+: _) (findSub_eq_none.1 hf)
      | some i =>
        have h1 : i ≤ a.length := findSub_least hf a (List.prefix_append _ _)
        have h2 := h ((a ++ src ++ b).take i) (by
          have e := findSub_eq_some hf
          exact ⟨_, e.symm⟩)
        rw [List.length_take] at h2
        obtain rfl : i = a.length := by omega
        have e1 : (a ++ src ++ b).take a.length = a := by simp
        have e2 : (a ++ src ++ b).drop (a.length + src.length) = b := by rw [← List.length_append]; exact List.drop_left
        dsimp only
        rw [e1, e2]
        exact ih

theorem applyDefaults_iff (su : SMap Str) (ds : SMap (Str × Str)) (t r : Str) :
    (∃ f, applyDefaults f su ds t = some r) ↔ RewordedAll (ds.filter fun d => (SMap.get? su d.1).getD [] = []) t r := by
  induction ds generalizing t with
  | nil =>
    constructor
    · rintro ⟨f, h⟩; cases h; exact .nil _
    · intro h; cases h; exact ⟨0, rfl⟩
  | cons d ds ih =>
    obtain ⟨k, src, dst⟩ := d
    by_cases e : (SMap.get? su k).getD [] = []
    · rw [List.filter_cons_of_pos (by simpa using e)]
      constructor
      · rintro ⟨f, h⟩
        rw [applyDefaults, if_pos e] at h
        cases h1 : replaceToken f t src dst with
        | none => rw [h1] at h; exact nomatch h
        | some t1 =>
          rw [h1] at h
          exact .cons ((replaceToken_iff src dst t t1).1 ⟨f, h1⟩) ((ih t1).1 ⟨f, h⟩)
      · intro h
        cases h with
        | @cons _ _ _ _ _ t1 _ h hs =>
          obtain ⟨f, hf⟩ := (replaceToken_iff src dst t t1).2 h
          obtain ⟨g, hg⟩ := (ih t1).2 hs
          refine ⟨f + g, ?_⟩
          rw [applyDefaults, if_pos e, replaceToken_mono g hf]
          dsimp only
          rw [Nat.add_comm]
          exact applyDefaults_mono f _ _ _ _ hg
    · rw [List.filter_cons_of_neg (by simpa using e), ← ih]
      refine exists_congr fun f => ?_
      rw [applyDefaults, if_neg e]

theorem sorted_mem_ext {α : Type} {a b : SMap α} (ha : a.Sorted) (hb : b.Pairwise fun x y => strLt x.1 y.1 = true) (h : ∀ p, p ∈ a ↔ p ∈ b) : a = b := by
  have hb : SMap.Sorted b := hb
  refine SMap.ext ha hb fun k => ?_
  cases e : SMap.get? a k with
  | some v => exact ((SMap.get?_eq_some hb k v).2 ((h _).1 ((SMap.get?_eq_some ha k v).1 e))).symm
  | none =>
    cases e' : SMap.get? b k with
    | none => rfl
    | some v => rw [(SMap.get?_eq_some ha k v).2 ((h _).2 ((SMap.get?_eq_some hb k v).1 e'))] at e; exact nomatch e

theorem _root_.PO.SMap.Sorted.filter {α : Type} {a : SMap α} (ha : a.Sorted) (p : Str × α → Bool) : SMap.Sorted (List.filter p a) := List.Pairwise.filter p ha

theorem filled_core (named : Bool) (template option token : Str) (style : Nat) (cs : List Call) (o : Obj)
    (h : Runs (construct none named template option token style) cs o) (s : Sentence)
    (hp : s.Proper)
    (hk : ∀ k, k ∈ ownParameters ∨ (toldLast (tellsText named k) cs).isSome = true → s.Safe k)
    (h1 : '%' ∉ option) (h2 : '%' ∉ token) (hv : ∀ k v, toldLast (tellsText named k) cs = some v → '%' ∉ v)
    (name pre : Str) (hn : optionName o = some name) (hpre : optionPrefix o = some pre)
    (ds : List (Str × Str × Str)) (hds : Applying named option token cs name pre ds) (hd : RewordedAll ds ((toldLast tellsTemplate cs).getD template) s.written)
    : (∀ m, WhatSays o m ↔ m = s.filled (textFor named option token cs name pre)) ∧
      ∀ k v, textFor named option token cs name pre k = some v → '%' ∉ v := by
  have hs := sorted_construct none named template option token style
  have hr := runs_core h
  obtain ⟨a1, a2, a3, a4, a5, a6, a7⟩ := told_foldl (core (construct none named template option token style)) cs
  rw [← hr] at a1 a2 a3 a4 a5 a6 a7
  have t1 : o.alternatives = none := a1
  have t4 : o.template = (toldLast tellsTemplate cs).getD template := a4
  have t5 : ∀ k, SMap.get? o.subst k = (toldLast (tellsText named k) cs).or
      (if k = str% "original_token" then some token else if k = str% "option" then some option else none) := by
    intro k
    rw [← get?_construct none named template option token style k]
    exact a5 k
  have t6 : ∀ k, SMap.get? o.defaults k = defaultFor cs k := by
    intro k
    rw [← default_construct none named template option token style]
    exact a6 k
  have t7 : o.subst.Sorted ∧ o.defaults.Sorted := a7 hs
  have hval : ∀ k v, SMap.get? o.subst k = some v → '%' ∉ v ∧ s.Safe k := by
    intro k v e
    rw [t5] at e
    cases ht : toldLast (tellsText named k) cs with
    | some x =>
      rw [ht] at e
      have e : some x = some v := e
      injection e with e
      exact ⟨e ▸ hv k x ht, hk k (.inr (by rw [ht]; rfl))⟩
    | none =>
      rw [ht, Option.none_or] at e
      by_cases e1 : k = str% "original_token"
      · rw [if_pos e1] at e; injection e with e; exact ⟨e ▸ h2, hk k (.inl (by rw [e1]; decide))⟩
      · rw [if_neg e1] at e
        by_cases e2 : k = str% "option"
        · rw [if_pos e2] at e; injection e with e; exact ⟨e ▸ h1, hk k (.inl (by rw [e2]; decide))⟩
        · rw [if_neg e2] at e; exact nomatch e
  have htext : ∀ k, '%' ∉ text o k := by
    intro k
    unfold text
    cases e : SMap.get? o.subst k with
    | none => simp
    | some v => exact (hval k v e).1
  have hname := percent_name (htext _) (htext _) hn
  have hsu : ∀ k, SMap.get? ((o.subst.set (str% "canonical_option") name).set (str% "prefix") pre) k
      = textFor named option token cs name pre k := by
    intro k
    rw [SMap.get?_set, SMap.get?_set, t5]
    unfold textFor
    simp only [eq_comm]
  have hsort := SMap.sorted_set (SMap.sorted_set t7.1 (str% "canonical_option") name) (str% "prefix") pre
  have hmem : ∀ p ∈ (o.subst.set (str% "canonical_option") name).set (str% "prefix") pre, '%' ∉ p.2 ∧ s.Safe p.1 := by
    intro p hp
    rcases SMap.mem_keys_set _ _ _ _ hp with e | hp
    · subst e; exact ⟨percent_prefix hpre, hk (str% "prefix") (.inl (by decide))⟩
    · rcases SMap.mem_keys_set _ _ _ _ hp with e | hp
      · subst e; exact ⟨hname, hk (str% "canonical_option") (.inl (by decide))⟩
      · exact hval p.1 p.2 ((SMap.get?_eq_some t7.1 p.1 p.2).2 hp)
  have hfil : o.defaults.filter (fun d => (SMap.get? ((o.subst.set (str% "canonical_option") name).set (str% "prefix") pre) d.1).getD [] = []) = ds := by
    refine sorted_mem_ext (SMap.Sorted.filter t7.2 _) (hds.order.imp (strLt_iff _ _).2) fun ⟨k, src, dst⟩ => ?_
    rw [hds.mem, List.mem_filter, ← SMap.get?_eq_some t7.2, t6, ← hsu]
    simp
  obtain ⟨f, hf⟩ := (applyDefaults_iff ((o.subst.set (str% "canonical_option") name).set (str% "prefix") pre) o.defaults
    ((toldLast tellsTemplate cs).getD template) s.written).2 (by rw [hfil]; exact hd)
  have hsay : saying (f + (s.words.length + 1)) o ((toldLast tellsTemplate cs).getD template) = some (s.filled (textFor named option token cs name pre)) := by
    unfold saying
    rw [hn, hpre]
    dsimp only
    rw [applyDefaults_mono (s.words.length + 1) _ _ _ _ hf]
    dsimp only
    rw [applySubsts_sentence _ hsort s hp (fun p hp => (hmem p hp).1) (fun p hp => (hmem p hp).2) _ (by omega)]
    rw [show SMap.get? ((o.subst.set (str% "canonical_option") name).set (str% "prefix") pre) = textFor named option token cs name pre from
      funext hsu]
  have hft : fullTemplate o = some ((toldLast tellsTemplate cs).getD template) := by unfold fullTemplate; rw [t1, t4]
  have hsays : WhatSays o (s.filled (textFor named option token cs name pre)) :=
    (whatSays_iff o _).2 ⟨_, hft, _, hsay⟩
  refine ⟨fun m => ⟨fun hm => C134_unique o _ _ hm hsays, fun e => e ▸ hsays⟩, fun k v e => ?_⟩
  rw [← hsu] at e
  exact (hmem (k, v) ((SMap.get?_eq_some hsort k v).1 e)).1

/-- Where `what` returns, the defaults have been applied. -/
theorem defaults_core (named : Bool) (template option token : Str) (style : Nat) (cs : List Call) (o : Obj)
    (h : Runs (construct none named template option token style) cs o) (m : Str) (hm : WhatSays o m) :
    ∃ name pre ds t, optionName o = some name ∧ optionPrefix o = some pre ∧ Applying named option token cs name pre ds ∧
      RewordedAll ds ((toldLast tellsTemplate cs).getD template) t := by
  have hs := sorted_construct none named template option token style
  have hr := runs_core h
  obtain ⟨a1, a2, a3, a4, a5, a6, a7⟩ := told_foldl (core (construct none named template option token style)) cs
  rw [← hr] at a1 a2 a3 a4 a5 a6 a7
  have t1 : o.alternatives = none := a1
  have t4 : o.template = (toldLast tellsTemplate cs).getD template := a4
  have t5 : ∀ k, SMap.get? o.subst k = (toldLast (tellsText named k) cs).or
      (if k = str% "original_token" then some token else if k = str% "option" then some option else none) := by
    intro k
    rw [← get?_construct none named template option token style k]
    exact a5 k
  have t6 : ∀ k, SMap.get? o.defaults k = defaultFor cs k := by
    intro k
    rw [← default_construct none named template option token style]
    exact a6 k
  have t7 : o.subst.Sorted ∧ o.defaults.Sorted := a7 hs
  obtain ⟨t, ht, f, hf⟩ := (whatSays_iff o m).1 hm
  have hft : fullTemplate o = some ((toldLast tellsTemplate cs).getD template) := by unfold fullTemplate; rw [t1, t4]
  rw [hft] at ht
  injection ht with ht
  subst ht
  unfold saying at hf
  cases h1 : optionName o with
  | none => rw [h1] at hf; exact nomatch hf
  | some name =>
    cases h2 : optionPrefix o with
    | none => rw [h1, h2] at hf; exact nomatch hf
    | some pre =>
      rw [h1, h2] at hf
      dsimp only at hf
      cases h3 : applyDefaults f ((o.subst.set (str% "canonical_option") name).set (str% "prefix") pre) o.defaults ((toldLast tellsTemplate cs).getD template) with
      | none => rw [h3] at hf; exact nomatch hf
      | some x =>
        have hsu : ∀ k, SMap.get? ((o.subst.set (str% "canonical_option") name).set (str% "prefix") pre) k
            = textFor named option token cs name pre k := by
          intro k
          rw [SMap.get?_set, SMap.get?_set, t5]
          unfold textFor
          simp only [eq_comm]
        refine ⟨name, pre, _, x, rfl, rfl, ⟨(SMap.Sorted.filter t7.2 _).imp (strLt_iff _ _).1, fun k src dst => ?_⟩, (applyDefaults_iff _ _ _ _).1 ⟨f, h3⟩⟩
        rw [List.mem_filter, ← SMap.get?_eq_some t7.2, t6, ← hsu]
        simp

theorem mem_filled {f : Str → Option Str} (hf : ∀ k v, f k = some v → '%' ∉ v) {w : Slot} (hw : w.Proper) :
    '%' ∈ w.filled f ↔ ∃ k, w.key? = some k ∧ f k = none := by
  cases w with
  | text s =>
    constructor
    · exact fun h => absurd h hw
    · rintro ⟨k, e, _⟩; exact nomatch e
  | hole b k a =>
    show '%' ∈ b ++ (f k).getD ('%' :: k ++ ['%']) ++ a ↔ ∃ k', some k = some k' ∧ f k' = none
    cases e : f k with
    | some v =>
      constructor
      · intro h
        simp only [Option.getD_some, List.mem_append] at h
        rcases h with (h | h) | h
        · exact absurd h hw.1
        · exact absurd h (hf k v e)
        · exact absurd h hw.2.2
      · rintro ⟨k', e1, e2⟩; injection e1 with e1; subst e1; rw [e] at e2; exact nomatch e2
    | none => exact ⟨fun _ => ⟨k, rfl, e⟩, fun _ => by simp⟩

theorem mem_sentence {f : Str → Option Str} (hf : ∀ k v, f k = some v → '%' ∉ v) {s : Sentence} (hs : s.Proper) :
    '%' ∈ s.filled f ↔ ∃ k ∈ s.keys, f k = none := by
  unfold Sentence.filled Sentence.map Sentence.keys
  rw [List.mem_append, List.mem_flatMap, mem_filled hf hs.last]
  constructor
  · rintro (⟨p, hp, h⟩ | ⟨k, h1, h2⟩)
    · rcases List.mem_append.1 h with h | h
      · obtain ⟨k, h1, h2⟩ := (mem_filled hf (hs.words p hp).1).1 h
        exact ⟨k, List.mem_filterMap.2 ⟨p.1, List.mem_append_left _ (List.mem_map_of_mem hp), h1⟩, h2⟩
      · exact absurd (List.mem_singleton.1 h).symm (hs.words p hp).2
    · exact ⟨k, List.mem_filterMap.2 ⟨s.last, by simp, h1⟩, h2⟩
  · rintro ⟨k, hk, h2⟩
    obtain ⟨w, hw, h1⟩ := List.mem_filterMap.1 hk
    rcases List.mem_append.1 hw with hw | hw
    · obtain ⟨p, hp, rfl⟩ := List.mem_map.1 hw
      exact .inl ⟨p, hp, List.mem_append_left _ ((mem_filled hf (hs.words p hp).1).2 ⟨k, h1, h2⟩)⟩
    · rw [List.mem_singleton.1 hw] at h1
      exact .inr ⟨k, h1, h2⟩

theorem textFor_none (named : Bool) (option token : Str) (cs : List Call) (name pre k : Str) :
    textFor named option token cs name pre k = none ↔ k ∉ ownParameters ∧ toldLast (tellsText named k) cs = none := by
  unfold textFor ownParameters
  simp only [List.mem_cons, List.not_mem_nil, or_false, not_or]
  by_cases e1 : k = str% "prefix"
  · rw [if_pos e1]; simp [e1]
  · rw [if_neg e1]
    by_cases e2 : k = str% "canonical_option"
    · rw [if_pos e2]; simp [e2]
    · rw [if_neg e2]
      by_cases e3 : k = str% "original_token"
      · rw [if_pos e3, Option.or_eq_none_iff]; simp [e3]
      · rw [if_neg e3]
        by_cases e4 : k = str% "option"
        · rw [if_pos e4, Option.or_eq_none_iff]; simp [e4]
        · rw [if_neg e4, Option.or_none]
          exact ⟨fun h => ⟨⟨e2, e4, e3, e1⟩, h⟩, fun h => h.2⟩

end Exception

open Spec Exception

/-- **C135**: the template last given, reworded by the defaults of the parameters without a text, with each placeholder replaced by what was last told of
its parameter; a placeholder without text stays. The texts and parameter names have no per cent signs, and no parameter name can be read across two
placeholders. -/
theorem C135_filled_partial (named : Bool) (template option token : Str) (style : Nat) (cs : List Call) (o : Obj)
    (h : Runs (construct none named template option token style) cs o) (s : Sentence)
    (hp : s.Proper)
    (hk : ∀ k, k ∈ ownParameters ∨ (toldLast (tellsText named k) cs).isSome = true → s.Safe k)
    (h1 : '%' ∉ option) (h2 : '%' ∉ token) (hv : ∀ k v, toldLast (tellsText named k) cs = some v → '%' ∉ v)
    (name pre : Str) (hn : optionName o = some name) (hpre : optionPrefix o = some pre)
    (ds : List (Str × Str × Str)) (hds : Applying named option token cs name pre ds) (hd : RewordedAll ds ((toldLast tellsTemplate cs).getD template) s.written)
    (m : Str) : WhatSays o m ↔ m = s.filled (textFor named option token cs name pre) :=
  (filled_core named template option token style cs o h s hp hk h1 h2 hv name pre hn hpre ds hds hd).1 m

/-- **C135**: then a placeholder is left in the message exactly if the exception was never told of its parameter. -/
theorem C135_left_partial (named : Bool) (template option token : Str) (style : Nat) (cs : List Call) (o : Obj)
    (h : Runs (construct none named template option token style) cs o) (s : Sentence)
    (hp : s.Proper)
    (hk : ∀ k, k ∈ ownParameters ∨ (toldLast (tellsText named k) cs).isSome = true → s.Safe k)
    (h1 : '%' ∉ option) (h2 : '%' ∉ token) (hv : ∀ k v, toldLast (tellsText named k) cs = some v → '%' ∉ v)
    (name pre : Str) (hn : optionName o = some name) (hpre : optionPrefix o = some pre)
    (ds : List (Str × Str × Str)) (hds : Applying named option token cs name pre ds) (hd : RewordedAll ds ((toldLast tellsTemplate cs).getD template) s.written)
    (m : Str) (hm : WhatSays o m) :
    '%' ∈ m ↔ ∃ k ∈ s.keys, k ∉ ownParameters ∧ toldLast (tellsText named k) cs = none := by
  obtain ⟨hf, hc⟩ := filled_core named template option token style cs o h s hp hk h1 h2 hv name pre hn hpre ds hds hd
  rw [(hf m).1 hm, mem_sentence hc hp]
  simp only [textFor_none]

/-- **C135**: if `what()` returns, there is such a rewording of the template. -/
theorem C135_reworded (named : Bool) (template option token : Str) (style : Nat) (cs : List Call) (o : Obj)
    (h : Runs (construct none named template option token style) cs o) (m : Str) (hm : WhatSays o m) :
    ∃ name pre ds t, optionName o = some name ∧ optionPrefix o = some pre ∧ Applying named option token cs name pre ds ∧
      RewordedAll ds ((toldLast tellsTemplate cs).getD template) t :=
  defaults_core named template option token style cs o h m hm

/-- A program's own exception: it is told of the file, but not of the value. -/
example : ∃ o, Runs (construct none true (Test.L "%file%: no %value% for '%canonical_option%'") (Test.L "size") [] 1)
      [.setSubstitute (Test.L "file") (Test.L "a.cfg"), .what, .setSubstitute (Test.L "file") (Test.L "b.cfg")] o ∧
    WhatSays o (Test.L "b.cfg: no %value% for '--size'") :=
  ⟨_, .setSubstitute (.what (fuel := 5) rfl (.setSubstitute (.nil _))), 5, _, rfl, rfl⟩

/-- Another one is told of neither the option nor the value: two defaults reword it, and nothing is left. -/
example : ∃ o, Runs (construct none true (Test.L "option '%canonical_option%' has a bad argument ('%value%') in %file%") [] [] 0)
      [.setSubstitute (Test.L "file") (Test.L "a.cfg")] o ∧ WhatSays o (Test.L "option has a bad argument in a.cfg") ∧
    Reworded (str% "option '%canonical_option%'") (str% "option") (Test.L "option '%canonical_option%' has") (Test.L "option has") :=
  ⟨_, .setSubstitute (.nil _), ⟨5, _, rfl, rfl⟩, .first [] (Test.L " has") (fun _ _ => Nat.zero_le _) (.done (by decide))⟩

/-- The hypotheses of `C135_left_partial` hold for the first one. -/
example : ∃ s : Sentence, s.written = Test.L "%file%: no %value% for '%canonical_option%'" ∧ s.Proper ∧
    (∀ k ∈ Test.L "file" :: ownParameters, s.Safe k) ∧ s.keys = [Test.L "file", Test.L "value", Test.L "canonical_option"] ∧
    s.filled (textFor true (Test.L "size") [] [.setSubstitute (Test.L "file") (Test.L "b.cfg")] (Test.L "--size") (Test.L "--")) =
      Test.L "b.cfg: no %value% for '--size'" := by
  refine ⟨⟨[(.hole [] (Test.L "file") (Test.L ":"), ' '), (.text (Test.L "no"), ' '), (.hole [] (Test.L "value") [], ' '), (.text (Test.L "for"), ' ')],
    .hole (Test.L "'") (Test.L "canonical_option") (Test.L "'")⟩, rfl, ⟨?_, ?_⟩, ?_, rfl, rfl⟩
  · intro p hp
    simp only [List.mem_cons, List.not_mem_nil, or_false] at hp
    rcases hp with e | e | e | e <;> subst e
    · exact ⟨⟨by decide, by decide, by decide⟩, by decide⟩
    · exact ⟨by show '%' ∉ Test.L "no"; decide, by decide⟩
    · exact ⟨⟨by decide, by decide, by decide⟩, by decide⟩
    · exact ⟨by show '%' ∉ Test.L "for"; decide, by decide⟩
  · exact ⟨by decide, by decide, by decide⟩
  · have hk : ∀ k ∈ Test.L "file" :: ownParameters, '%' ∉ k ∧ ' ' ∉ k := by decide
    refine fun k h => ⟨(hk k h).1, fun p hp => ?_⟩
    simp only [List.mem_cons, List.not_mem_nil, or_false] at hp
    rcases hp with e | e | e | e <;> subst e <;> exact (hk k h).2

/-- What the documentation says (errors.hpp:79-80): "ugly placeholders are never left in-place". -/
def C135_claim : Prop :=
  ∀ (named : Bool) (template option token : Str) (style : Nat) (cs : List Call) (o : Obj) (s : Sentence),
    Runs (construct none named template option token style) cs o → (toldLast tellsTemplate cs).getD template = s.written → s.Proper →
    (∀ k, k ∈ ownParameters ∨ (toldLast (tellsText named k) cs).isSome = true → s.Safe k) → '%' ∉ option → '%' ∉ token →
    (∀ k v, toldLast (tellsText named k) cs = some v → '%' ∉ v) → ∀ m, WhatSays o m → '%' ∉ m

/-- **C135**: they are: `error_with_option_name("bad %value%")` has no value, and its default is for another wording. -/
theorem C135_negation : ¬ C135_claim := by
  intro h
  refine h true (Test.L "bad %value%") [] [] 0 [] _ ⟨[(.text (Test.L "bad"), ' ')], .hole [] (Test.L "value") []⟩ (.nil _) rfl ⟨?_, ?_⟩ ?_
    (by decide) (by decide) ?_ (Test.L "bad %value%") ⟨5, _, rfl, rfl⟩ (by decide)
  · intro p hp
    rw [List.mem_singleton.1 hp]
    exact ⟨by show '%' ∉ Test.L "bad"; decide, by decide⟩
  · exact ⟨by decide, by decide, by decide⟩
  · rintro k (hk | hk)
    · have : ∀ k ∈ ownParameters, '%' ∉ k ∧ ' ' ∉ k := by decide
      exact ⟨(this k hk).1, fun p hp => by rw [List.mem_singleton.1 hp]; exact (this k hk).2⟩
    · exact nomatch hk
  · exact fun k v e => nomatch e

theorem Exception.percent_canonical {e : OptErr} {name : Str} (h1 : '%' ∉ e.substD (str% "option")) (h2 : '%' ∉ e.substD (str% "original_token"))
    (h : e.canonicalName = some name) : '%' ∉ name :=
  percent_name (o := { style := e.style, subst := e.subst }) h1 h2 (by rw [← h]; rfl)

/-- **C135**: the exceptions of the library: if the option, the token, the value and the line have no per cent signs, a placeholder is left
exactly if the message is to quote a line and there is none (which the library itself does not throw). -/
theorem C135_library (e : OptErr) (hb : Built e) (hk : KnownStyle e.style) (ha : ∀ alts, e.cls ≠ .ambiguousOption alts)
    (h : ∀ k, '%' ∉ e.substD k) :
    ∃ m, (∃ f, e.what f = some m) ∧
      ('%' ∈ m ↔ (e.cls = .cmdlineSyntax .unrecognizedLine ∨ e.cls = .configSyntax .unrecognizedLine) ∧
        SMap.has e.subst (str% "invalid_line") = false) := by
  have hclean : ∀ k, Clean (e.substD k) := fun k k' _ => not_infix_clean k' (h k)
  by_cases hl : (e.cls = .cmdlineSyntax .unrecognizedLine ∨ e.cls = .configSyntax .unrecognizedLine) ∧
      SMap.has e.subst (str% "invalid_line") = false
  · obtain ⟨hc, hl⟩ := hl
    refine ⟨SyntaxKind.unrecognizedLine.template, ?_, by simp only [hc, hl, and_self, iff_true]; decide⟩
    obtain ⟨pre, hp, hpp⟩ := prefix_of_known hk
    obtain ⟨name, hn⟩ := name_of_prefix hp
    have hname := percent_canonical (h _) (h _) hn
    obtain ⟨line, n, t, value, hs⟩ := built_shape hb
    have hline : line = none := by
      cases line with
      | none => rfl
      | some l =>
        exfalso
        rw [hs] at hl
        have : SMap.has (shape (some l) n t value) (str% "invalid_line") = true := rfl
        rw [this] at hl
        exact nomatch hl
    subst hline
    obtain ⟨s1, s2, s3, _⟩ := substD_shape e none n t value hs
    have hn' : '%' ∉ n := s1 ▸ h _
    have ht' : '%' ∉ t := s2 ▸ h _
    have hsorted : (fullShape name pre none n t value).Sorted := by
      refine (List.pairwise_map (f := Prod.fst) (R := fun a b => strLt a b = true)).1 ?_
      cases value with
      | none => show [kCanon, kOption, kToken, kPrefix].Pairwise (fun a b => strLt a b = true); decide
      | some v => show [kCanon, kOption, kToken, kPrefix, kValue].Pairwise (fun a b => strLt a b = true); decide
    have hmem : ∀ p ∈ fullShape name pre none n t value, '%' ∉ p.2 ∧ '%' ∉ p.1 := by
      intro p hp
      have hk1 : '%' ∉ kCanon := by decide
      have hk2 : '%' ∉ kOption := by decide
      have hk3 : '%' ∉ kToken := by decide
      have hk4 : '%' ∉ kPrefix := by decide
      have hk5 : '%' ∉ kValue := by decide
      cases value with
      | none =>
        simp only [fullShape, Option.toList_none, List.map_nil, List.append_nil, List.cons_append, List.nil_append, List.mem_cons, List.not_mem_nil, or_false] at hp
        rcases hp with e | e | e | e <;> subst e
        · exact ⟨hname, hk1⟩
        · exact ⟨hn', hk2⟩
        · exact ⟨ht', hk3⟩
        · exact ⟨hpp, hk4⟩
      | some v =>
        have hv' : '%' ∉ v := by
          have : e.substD (str% "value") = v := by rw [s3]; rfl
          exact this ▸ h _
        simp only [fullShape, Option.toList_none, Option.toList_some, List.map_nil, List.map_cons, List.cons_append, List.nil_append, List.mem_cons, List.not_mem_nil, or_false] at hp
        rcases hp with e | e | e | e | e <;> subst e
        · exact ⟨hname, hk1⟩
        · exact ⟨hn', hk2⟩
        · exact ⟨ht', hk3⟩
        · exact ⟨hpp, hk4⟩
        · exact ⟨hv', hk5⟩
    let s : Sentence := ⟨[], .hole (str% "the options configuration file contains an invalid line '") (str% "invalid_line") (str% "'")⟩
    have hw : s.written = SyntaxKind.unrecognizedLine.template := rfl
    have hsub : ∀ f, 1 ≤ f → e.substitute f SyntaxKind.unrecognizedLine.template = some SyntaxKind.unrecognizedLine.template := by
      intro f hf
      unfold OptErr.substitute
      rw [hn, hp]
      dsimp only
      rw [hs, fullShape_eq, applyDefaults_none]
      · dsimp only
        rw [← hw, applySubsts_sentence _ _ s ⟨(fun _ hp => absurd hp List.not_mem_nil), ⟨by decide, by decide, by decide⟩⟩ _ _ f hf]
        · congr 1
          cases value <;> rfl
        · exact hsorted
        · exact fun p hp => (hmem p hp).1
        · exact fun p hp => ⟨(hmem p hp).2, fun _ hp => absurd hp List.not_mem_nil⟩
      · have : ∀ d ∈ substDefaults, ¬ d.2.1 <:+: SyntaxKind.unrecognizedLine.template := by decide
        exact fun d hd _ => this d hd
    refine ⟨1, ?_⟩
    unfold OptErr.what
    rcases hc with hc | hc <;> (rw [hc]; exact hsub 1 (Nat.le_refl _))
  · obtain ⟨name, hn, hm⟩ := C48_verbatim_partial e hb hk ha (by
      intro hc
      cases hh : SMap.has e.subst (str% "invalid_line") with
      | true => rfl
      | false => exact absurd ⟨hc, hh⟩ hl) (hclean _) (hclean _) (hclean _ kValue (by simp)) (hclean _)
    refine ⟨_, ⟨5, hm 5 (Nat.le_refl _)⟩, ?_⟩
    rw [iff_false_right hl]
    have hname := percent_canonical (h _) (h _) hn
    have hopt : '%' ∉ optionText name := by
      unfold optionText; split
      · decide
      · simp [hname]
    have harg : '%' ∉ argumentText (e.substD (str% "value")) := by
      unfold argumentText; split
      · decide
      · simp [h]
    have hline := h (str% "invalid_line")
    generalize e.substD (str% "value") = v at *
    generalize e.substD (str% "invalid_line") = l at *
    cases e.cls with
    | cmdlineSyntax k => cases k <;> simp [message, syntaxMessage, hopt, hline]
    | configSyntax k => cases k <;> simp [message, syntaxMessage, hopt, hline]
    | validation k => cases k <;> simp [message, validMessage, hopt, harg]
    | _ => simp [message, hopt]

/-- A bad value: nothing is left. And a line that is missing: its placeholder is left. -/
example : (((OptErr.mk' (.validation .invalidOptionValue)).setSubst (str% "value") (Test.L "x")).addContext (Test.L "size") (Test.L "--size=x") 1).what 5 =
      some (Test.L "the argument ('x') for option '--size' is invalid") ∧
    (OptErr.mk' (.cmdlineSyntax .unrecognizedLine)).what 5 =
      some (Test.L "the options configuration file contains an invalid line '%invalid_line%'") := ⟨rfl, rfl⟩

/-- **C135**: an ambiguous option: nothing is left. -/
theorem C135_ambiguous (e : OptErr) (hb : Built e) (hk : KnownStyle e.style) (alts : List Str) (hc : e.cls = .ambiguousOption alts)
    (hst : e.style ≠ Style.allowDashForShort ∧ e.style ≠ Style.allowSlashForShort) (hne : alts ≠ []) (ha : ∀ a ∈ alts, '%' ∉ a)
    (h : ∀ k, '%' ∉ e.substD k) (hv : SMap.has e.subst (str% "value") = false ∧ SMap.has e.subst (str% "invalid_line") = false)
    (hnn : e.canonicalName ≠ some []) : ∃ m, (∃ f, e.what f = some m) ∧ '%' ∉ m := by
  have hclean : ∀ k, Clean (e.substD k) := fun k k' _ => not_infix_clean k' (h k)
  obtain ⟨name, pre, sorted, f0, hn, hp, hsd, hm, hw⟩ := C49_alternatives e hb hk alts hc hst hne ha (hclean _) (hclean _) hv hnn
  refine ⟨_, ⟨f0, hw f0 (Nat.le_refl _)⟩, ?_⟩
  have hname := percent_canonical (h _) (h _) hn
  obtain ⟨pre', hp', hpre⟩ := prefix_of_known hk
  rw [hp] at hp'; injection hp' with hp'; subst hp'
  have hs : ∀ a ∈ sorted, '%' ∉ a := fun a h => ha a ((hm a).1 h)
  have htext : '%' ∉ alternativesText pre sorted := by
    clear hm hw hsd
    induction sorted with
    | nil => simp [alternativesText]
    | cons a as ih =>
      have h1 := hs a List.mem_cons_self
      have ih := ih fun b hb => hs b (List.mem_cons_of_mem _ hb)
      match as, hs, ih with
      | [], _, _ => simp [alternativesText, h1, hpre]
      | [b], hs, _ => simp [alternativesText, h1, hpre, hs b (by simp)]
      | b :: c :: as, _, ih => simp only [alternativesText]; simp [h1, hpre, ih]
  have hd : '%' ∉ (if alts.length > 1 ∧ sorted.length = 1 then str% "different versions of " else []) := by
    split <;> decide
  simp only [List.mem_append, not_or]
  exact ⟨⟨⟨⟨by decide, hname⟩, by decide⟩, hd⟩, htext⟩

end PO
