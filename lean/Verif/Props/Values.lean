import Verif.Spec.Convert
import Verif.Tests.Util
/-
C82: what the value tokens of an option are converted to.
-/
namespace PO
open Spec

/-- What the conversion of one value does, whatever the character type. -/
structure ScalarFaithful {α : Type} (env : Env) (scalar : SType → List α → Except Fail SVal) (text : α → Word) : Prop where
  ok : ∀ st x v, scalar st [x] = .ok v ↔ Converts env st (text x) v
  error : ∀ st x f, scalar st [x] = .error f ↔ ∃ k s, Rejects env st (text x) k s ∧ f = objection (.validation k) (some s)
  bool : scalar .bool [] = .ok (.bool true)
  missing : ∀ st, st ≠ .bool → scalar st [] = .error (objection (.validation .atLeastOneValueRequired) none)
  several : ∀ st x y zs, scalar st (x :: y :: zs) = .error (objection (.validation .multipleValuesNotAllowed) none)

theorem boolWord_true (s : Str) : boolWord s = some true ↔ s ∈ yesWords := by
  unfold boolWord yesWords
  split
  · rename_i h; simpa using h
  · rename_i h
    split <;> simp_all

theorem boolWord_false (s : Str) : boolWord s = some false ↔ s ∈ noWords := by
  unfold boolWord noWords
  split
  · rename_i h
    rcases h with h | h | h | h | h <;> subst h <;> decide
  · split <;> simp_all

theorem wboolWord_true (s : WStr) : wboolWord s = some true ↔ ∃ w ∈ yesWords, s = w.map Char.toNat := by
  unfold wboolWord yesWords widen
  split
  · rename_i h; simpa using h
  · rename_i h
    split <;> simp_all

theorem wboolWord_false (s : WStr) : wboolWord s = some false ↔ ∃ w ∈ noWords, s = w.map Char.toNat := by
  unfold wboolWord noWords widen
  split
  · rename_i h
    rcases h with h | h | h | h | h <;> subst h <;> decide
  · split <;> simp_all

theorem faithful_narrow (env : Env) : ScalarFaithful env (validateScalar env) .narrow where
  ok := by
    intro st x v
    cases st with
    | bool =>
      simp only [validateScalar, getSingle]
      cases h : boolWord (toLower x) with
      | none =>
        constructor
        · intro h'; cases h'
        · intro h'
          cases h' with
          | yes _ w hw hx => rw [(boolWord_true _).2 (by rw [show toLower x = w from hx]; exact hw)] at h; cases h
          | no _ w hw hx => rw [(boolWord_false _).2 (by rw [show toLower x = w from hx]; exact hw)] at h; cases h
      | some b =>
        constructor
        · intro h'; cases h'
          cases b
          · exact .no _ _ ((boolWord_false _).1 h) rfl
          · exact .yes _ _ ((boolWord_true _).1 h) rfl
        · intro h'
          cases h' with
          | yes _ w hw hx => rw [(boolWord_true _).2 (by rw [show toLower x = w from hx]; exact hw)] at h; cases h; rfl
          | no _ w hw hx => rw [(boolWord_false _).2 (by rw [show toLower x = w from hx]; exact hw)] at h; cases h; rfl
    | str =>
      simp only [validateScalar, getSingle]
      constructor
      · intro h; cases h; exact .string x
      · intro h; cases h; rfl
    | wstr =>
      simp only [validateScalar, getSingle]
      exact ⟨nofun, nofun⟩
    | lex ty =>
      simp only [validateScalar, getSingle]
      cases h : env.lex ty x with
      | none => exact ⟨nofun, fun h' => by cases h' with | cast _ _ _ e => rw [h] at e; cases e⟩
      | some v' =>
        constructor
        · intro h'; cases h'; exact .cast _ _ _ h
        · intro h'; cases h' with | cast _ _ _ e => rw [h] at e; cases e; rfl
  error := by
    intro st x f
    cases st with
    | bool =>
      simp only [validateScalar, getSingle]
      cases h : boolWord (toLower x) with
      | none =>
        have hn : ∀ word ∈ yesWords ++ noWords, ¬ isWord word (lowered (.narrow x)) := by
          intro w hw hx
          rcases List.mem_append.1 hw with hw | hw
          · rw [(boolWord_true _).2 (by rw [show toLower x = w from hx]; exact hw)] at h; cases h
          · rw [(boolWord_false _).2 (by rw [show toLower x = w from hx]; exact hw)] at h; cases h
        constructor
        · intro h'; cases h'; exact ⟨_, _, .bool _ hn, rfl⟩
        · rintro ⟨k, s, h', rfl⟩; cases h'; rfl
      | some b =>
        constructor
        · intro h'; cases h'
        · rintro ⟨k, s, h', rfl⟩
          cases h' with
          | bool _ hn =>
            cases b
            · exact absurd rfl (hn _ (List.mem_append_right _ ((boolWord_false _).1 h)))
            · exact absurd rfl (hn _ (List.mem_append_left _ ((boolWord_true _).1 h)))
    | str =>
      simp only [validateScalar, getSingle]
      exact ⟨nofun, fun ⟨k, s, h, _⟩ => by cases h⟩
    | wstr =>
      simp only [validateScalar, getSingle]
      constructor
      · intro h; cases h; exact ⟨_, _, .wstring x, rfl⟩
      · rintro ⟨k, s, h, rfl⟩; cases h; rfl
    | lex ty =>
      simp only [validateScalar, getSingle]
      cases h : env.lex ty x with
      | none =>
        constructor
        · intro h'; cases h'; exact ⟨_, _, .cast _ _ h, rfl⟩
        · rintro ⟨k, s, h', rfl⟩; cases h'; rfl
      | some v' => exact ⟨nofun, fun ⟨k, s, h', _⟩ => by cases h' with | cast _ _ e => rw [h] at e; cases e⟩
  bool := rfl
  missing := by intro st h; cases st <;> first | exact absurd rfl h | rfl
  several := by intro st x y zs; cases st <;> rfl

theorem faithful_wide (env : Env) : ScalarFaithful env (wvalidateScalar env) .wide where
  ok := by
    intro st x v
    cases st with
    | bool =>
      simp only [wvalidateScalar, getSingle]
      cases h : wboolWord (wlower x) with
      | none =>
        constructor
        · intro h'; cases h'
        · intro h'
          cases h' with
          | yes _ w hw hx => rw [(wboolWord_true (wlower x)).2 ⟨w, hw, hx⟩] at h; cases h
          | no _ w hw hx => rw [(wboolWord_false (wlower x)).2 ⟨w, hw, hx⟩] at h; cases h
      | some b =>
        constructor
        · intro h'; cases h'
          cases b
          · obtain ⟨w, hw, hx⟩ := (wboolWord_false _).1 h; exact .no _ _ hw hx
          · obtain ⟨w, hw, hx⟩ := (wboolWord_true _).1 h; exact .yes _ _ hw hx
        · intro h'
          cases h' with
          | yes _ w hw hx => rw [(wboolWord_true (wlower x)).2 ⟨w, hw, hx⟩] at h; cases h; rfl
          | no _ w hw hx => rw [(wboolWord_false (wlower x)).2 ⟨w, hw, hx⟩] at h; cases h; rfl
    | str =>
      simp only [wvalidateScalar, getSingle]
      constructor
      · intro h; cases h; exact .widened x
      · intro h; cases h; rfl
    | wstr =>
      simp only [wvalidateScalar, getSingle]
      constructor
      · intro h; cases h; exact .wstring x
      · intro h; cases h; rfl
    | lex ty =>
      simp only [wvalidateScalar, getSingle]
      cases h : env.wlex ty x with
      | none => exact ⟨nofun, fun h' => by cases h' with | wcast _ _ _ e => rw [h] at e; cases e⟩
      | some v' =>
        constructor
        · intro h'; cases h'; exact .wcast _ _ _ h
        · intro h'; cases h' with | wcast _ _ _ e => rw [h] at e; cases e; rfl
  error := by
    have hq : ∀ w, convertValue env w = quoted env (.wide w) := by
      intro w; unfold convertValue quoted; dsimp only; cases env.toLocal w <;> rfl
    intro st x f
    cases st with
    | bool =>
      simp only [wvalidateScalar, getSingle]
      cases h : wboolWord (wlower x) with
      | none =>
        have hn : ∀ word ∈ yesWords ++ noWords, ¬ isWord word (lowered (.wide x)) := by
          intro w hw hx
          rcases List.mem_append.1 hw with hw | hw
          · rw [(wboolWord_true (wlower x)).2 ⟨w, hw, hx⟩] at h; cases h
          · rw [(wboolWord_false (wlower x)).2 ⟨w, hw, hx⟩] at h; cases h
        constructor
        · intro h'; cases h'; exact ⟨_, _, .bool _ hn, by rw [hq]; rfl⟩
        · rintro ⟨k, s, h', rfl⟩; cases h'; rw [hq]; rfl
      | some b =>
        constructor
        · intro h'; cases h'
        · rintro ⟨k, s, h', rfl⟩
          cases h' with
          | bool _ hn =>
            cases b
            · obtain ⟨w, hw, hx⟩ := (wboolWord_false _).1 h; exact absurd hx (hn _ (List.mem_append_right _ hw))
            · obtain ⟨w, hw, hx⟩ := (wboolWord_true _).1 h; exact absurd hx (hn _ (List.mem_append_left _ hw))
    | str =>
      simp only [wvalidateScalar, getSingle]
      exact ⟨nofun, fun ⟨k, s, h, _⟩ => by cases h⟩
    | wstr =>
      simp only [wvalidateScalar, getSingle]
      exact ⟨nofun, fun ⟨k, s, h, _⟩ => by cases h⟩
    | lex ty =>
      simp only [wvalidateScalar, getSingle]
      cases h : env.wlex ty x with
      | none =>
        constructor
        · intro h'; cases h'; exact ⟨_, _, .wcast _ _ h, by rw [hq]; rfl⟩
        · rintro ⟨k, s, h', rfl⟩; cases h'; rw [hq]; rfl
      | some v' => exact ⟨nofun, fun ⟨k, s, h', _⟩ => by cases h' with | wcast _ _ e => rw [h] at e; cases e⟩
  bool := rfl
  missing := by intro st h; cases st <;> first | exact absurd rfl h | rfl
  several := by intro st x y zs; cases st <;> rfl

section generic

variable {α : Type} {env : Env} {scalar : SType → List α → Except Fail SVal} {text : α → Word} (F : ScalarFaithful env scalar text)
include F

theorem vecLoop_iff (st : SType) (vs : List SVal) (xs : List α) :
    (∀ us, validateVecLoop (scalar st) st vs xs = (us, none) ↔
      ∃ ws, us = vs ++ ws ∧ List.Forall₂ (fun x w => Converts env st x w ∧ w.type = st) (xs.map text) ws) ∧
    (∀ us f, validateVecLoop (scalar st) st vs xs = (us, some f) ↔
      ∃ good x rest ws, xs.map text = good ++ x :: rest ∧ us = vs ++ ws ∧ List.Forall₂ (fun x w => Converts env st x w ∧ w.type = st) good ws ∧
        ((∃ k s, Rejects env st x k s ∧ f = objection (.validation k) (some s)) ∨ (∃ v, Converts env st x v ∧ v.type ≠ st ∧ f = .badAnyCast))) := by
  induction xs generalizing vs with
  | nil =>
    constructor
    · intro us
      constructor
      · intro h; cases h; exact ⟨[], by simp, .nil⟩
      · rintro ⟨ws, rfl, h⟩; cases h; simp [validateVecLoop]
    · intro us f
      constructor
      · intro h; cases h
      · rintro ⟨good, x, rest, ws, h, -⟩; cases good <;> cases h
  | cons x xs ih =>
    unfold validateVecLoop
    cases hs : scalar st [x] with
    | error f0 =>
      obtain ⟨k, s, hr, rfl⟩ := (F.error st x f0).1 hs
      have hno : ∀ v, ¬ Converts env st (text x) v := fun v hv => by
        have := (F.ok st x v).2 hv; rw [hs] at this; cases this
      constructor
      · intro us
        constructor
        · intro h; cases h
        · rintro ⟨ws, rfl, h⟩
          cases h with | cons h t => exact absurd h.1 (hno _)
      · intro us f
        constructor
        · intro h; cases h
          exact ⟨[], text x, xs.map text, [], rfl, by simp, .nil, .inl ⟨k, s, hr, rfl⟩⟩
        · rintro ⟨good, y, rest, ws, h, rfl, hg, hb⟩
          cases good with
          | cons z zs =>
            cases hg with
            | cons hz ht => simp only [List.map_cons, List.cons_append, List.cons.injEq] at h; rw [← h.1] at hz; exact absurd hz.1 (hno _)
          | nil =>
            cases hg
            simp only [List.map_cons, List.nil_append, List.cons.injEq] at h
            obtain ⟨rfl, -⟩ := h
            rcases hb with ⟨k', s', hr', rfl⟩ | ⟨v, hv, -⟩
            · have := (F.error st x _).2 ⟨k', s', hr', rfl⟩
              rw [hs] at this; injection this with this
              simp [this]
            · exact absurd hv (hno _)
    | ok v =>
      have hc := (F.ok st x v).1 hs
      have hu : ∀ v', Converts env st (text x) v' → v' = v := fun v' h' => by
        have := (F.ok st x v').2 h'; rw [hs] at this; cases this; rfl
      have hnr : ∀ k s, ¬ Rejects env st (text x) k s := fun k s h' => by
        have := (F.error st x _).2 ⟨k, s, h', rfl⟩; rw [hs] at this; cases this
      by_cases ht : v.type = st
      · simp only [if_pos ht]
        obtain ⟨i1, i2⟩ := ih (vs ++ [v])
        constructor
        · intro us
          rw [i1]
          constructor
          · rintro ⟨ws, rfl, h⟩; exact ⟨v :: ws, by simp, .cons ⟨hc, ht⟩ h⟩
          · rintro ⟨ws, rfl, h⟩
            cases h with
            | cons h t => rw [hu _ h.1]; exact ⟨_, by simp, t⟩
        · intro us f
          rw [i2]
          constructor
          · rintro ⟨good, y, rest, ws, h, rfl, hg, hb⟩
            exact ⟨text x :: good, y, rest, v :: ws, by simp [h], by simp, .cons ⟨hc, ht⟩ hg, hb⟩
          · rintro ⟨good, y, rest, ws, h, rfl, hg, hb⟩
            cases good with
            | nil =>
              simp only [List.map_cons, List.nil_append, List.cons.injEq] at h
              obtain ⟨rfl, -⟩ := h
              rcases hb with ⟨k', s', hr', rfl⟩ | ⟨v', hv, hvt, -⟩
              · exact absurd hr' (hnr _ _)
              · rw [hu _ hv] at hvt; exact absurd ht hvt
            | cons z zs =>
              simp only [List.map_cons, List.cons_append, List.cons.injEq] at h
              obtain ⟨rfl, h⟩ := h
              cases hg with
              | cons hz hzs => rw [hu _ hz.1]; exact ⟨zs, y, rest, _, h, by simp, hzs, hb⟩
      · simp only [if_neg ht]
        constructor
        · intro us
          constructor
          · intro h; cases h
          · rintro ⟨ws, rfl, h⟩
            cases h with | cons h t => rw [hu _ h.1] at h; exact absurd h.2 ht
        · intro us f
          constructor
          · intro h; cases h
            exact ⟨[], text x, xs.map text, [], rfl, by simp, .nil, .inr ⟨v, hc, ht, rfl⟩⟩
          · rintro ⟨good, y, rest, ws, h, rfl, hg, hb⟩
            cases good with
            | cons z zs =>
              simp only [List.map_cons, List.cons_append, List.cons.injEq] at h
              obtain ⟨rfl, h⟩ := h
              cases hg with
              | cons hz hzs => rw [hu _ hz.1] at hz; exact absurd hz.2 ht
            | nil =>
              cases hg
              simp only [List.map_cons, List.nil_append, List.cons.injEq] at h
              obtain ⟨rfl, -⟩ := h
              rcases hb with ⟨k', s', hr', rfl⟩ | ⟨v', hv, hvt, rfl⟩
              · exact absurd hr' (hnr _ _)
              · simp

theorem scalar_facts (st : SType) (x : α) :
    (∃ v, scalar st [x] = .ok v ∧ Converts env st (text x) v ∧ (∀ v', Converts env st (text x) v' → v' = v) ∧ ∀ k s, ¬ Rejects env st (text x) k s) ∨
    (∃ k s, scalar st [x] = .error (objection (.validation k) (some s)) ∧ Rejects env st (text x) k s ∧ (∀ v, ¬ Converts env st (text x) v) ∧
      ∀ k' s', Rejects env st (text x) k' s' → objection (.validation k') (some s') = objection (.validation k) (some s)) := by
  cases hs : scalar st [x] with
  | ok v =>
    refine .inl ⟨v, rfl, (F.ok st x v).1 hs, fun v' h' => ?_, fun k s h' => ?_⟩
    · have := (F.ok st x v').2 h'; rw [hs] at this; cases this; rfl
    · have := (F.error st x _).2 ⟨k, s, h', rfl⟩; rw [hs] at this; cases this
  | error f =>
    obtain ⟨k, s, hr, rfl⟩ := (F.error st x f).1 hs
    refine .inr ⟨k, s, rfl, hr, fun v hv => ?_, fun k' s' h' => ?_⟩
    · have := (F.ok st x v).2 hv; rw [hs] at this; cases this
    · have := (F.error st x _).2 ⟨k', s', h', rfl⟩; rw [hs] at this; injection this with this; exact this.symm

/-- Success and failure of a typed value, on the texts. -/
theorem xparse_iff (t : TypedValue) (prev : Any) (xs : List α) :
    (∀ left, TypedValue.xparse scalar t prev xs = (left, none) ↔ ∃ a, left = some a ∧ Takes env t prev (xs.map text) a) ∧
    (∀ left f, TypedValue.xparse scalar t prev xs = (left, some f) ↔ Refuses env t prev (xs.map text) left f) := by
  by_cases himp : xs = [] ∧ t.implicit ≠ none
  · obtain ⟨rfl, hi⟩ := himp
    cases hi' : t.implicit with
    | none => exact absurd hi' hi
    | some iv =>
      obtain ⟨iv, s⟩ := iv
      simp only [TypedValue.xparse, hi', List.map_nil]
      constructor
      · intro left
        constructor
        · intro h; cases h; exact ⟨iv, rfl, .implicit iv s hi'⟩
        · rintro ⟨a, rfl, h⟩
          cases h with
          | implicit iv' s' h => rw [hi'] at h; cases h; rfl
          | present h hp h' => rw [hi'] at h'; cases h'
          | vector st _ vs ws h hp h' => exact absurd (h' rfl) hi
      · intro left f
        constructor
        · intro h; cases h
        · intro h
          generalize hx : ([] : List Word) = ys at h
          cases h with
          | again st _ a h hp h' => exact absurd (h' hx.symm) hi
          | several => cases hx
          | missing st h hb hp h' => exact absurd h' hi
          | wrong => cases hx
          | wrongElement st good => cases good <;> cases hx
          | otherType => cases hx
          | otherElement st good => cases good <;> cases hx
          | notVector st _ a h hp ha h' => exact absurd (h' hx.symm) hi
  · have hi : xs = [] → t.implicit = none := fun h => Decidable.byContradiction fun h' => himp ⟨h, h'⟩
    have hi' : xs.map text = [] → t.implicit = none := fun h => hi (List.map_eq_nil_iff.1 h)
    have e : TypedValue.xparse scalar t prev xs = validate scalar t.type prev xs := by
      unfold TypedValue.xparse
      cases xs with
      | nil => rw [hi rfl]
      | cons x xs => rfl
    rw [e]
    cases htype : t.type with
    | scalar st =>
      cases prev with
      | some a0 =>
        simp only [validate]
        constructor
        · intro left
          refine ⟨nofun, ?_⟩
          rintro ⟨a, rfl, h⟩
          generalize hx : xs.map text = ys at h
          cases h with
          | implicit iv' s' h => rw [hi (List.map_eq_nil_iff.1 hx)] at h; cases h
          | scalar _ _ _ _ hp => cases hp
          | present _ hp => cases hp
          | vector st _ vs ws h => rw [htype] at h; cases h
          | optional st _ _ h => rw [htype] at h; cases h
        · intro left f
          constructor
          · intro h; cases h
            exact .again st _ a0 (by rw [htype]; exact .scalar st) rfl hi'
          · intro h
            generalize hx : xs.map text = ys at h
            cases h with
            | again => rfl
            | several _ _ _ _ _ hp => cases hp
            | missing _ _ _ hp => cases hp
            | wrong _ _ _ _ _ hp => cases hp
            | wrongElement st good x rest vs ws k s h => rw [htype] at h; cases h
            | otherType st _ _ h => rw [htype] at h; cases h
            | otherElement st good x v rest vs ws h => rw [htype] at h; cases h
            | notVector st _ _ h => rw [htype] at h; cases h
      | none =>
        simp only [validate]
        match xs, hi, hi' with
        | [], hi, hi' =>
          by_cases hb : st = .bool
          · subst hb
            rw [F.bool]
            constructor
            · intro left
              constructor
              · intro h; cases h; exact ⟨_, rfl, .present htype rfl (hi rfl)⟩
              · rintro ⟨a, rfl, h⟩
                generalize hx : List.map text [] = ys at h
                cases h with
                | implicit iv' s' h => rw [hi rfl] at h; cases h
                | scalar => cases hx
                | present => rfl
                | vector st _ vs ws h => rw [htype] at h; cases h
                | optional st _ _ h => rw [htype] at h; cases h
            · intro left f
              refine ⟨nofun, ?_⟩
              intro h
              generalize hx : List.map text [] = ys at h
              cases h with
              | again _ _ _ _ hp => cases hp
              | several => cases hx
              | missing _ _ hb => exact absurd htype hb
              | wrong => cases hx
              | wrongElement st good x rest vs ws k s h => rw [htype] at h; cases h
              | otherType st _ _ h => rw [htype] at h; cases h
              | otherElement st good x v rest vs ws h => rw [htype] at h; cases h
              | notVector st _ _ h => rw [htype] at h; cases h
          · rw [F.missing st hb]
            constructor
            · intro left
              refine ⟨nofun, ?_⟩
              rintro ⟨a, rfl, h⟩
              generalize hx : List.map text [] = ys at h
              cases h with
              | implicit iv' s' h => rw [hi rfl] at h; cases h
              | scalar => cases hx
              | present h => rw [htype] at h; cases h; exact absurd rfl hb
              | vector st _ vs ws h => rw [htype] at h; cases h
              | optional st _ _ h => rw [htype] at h; cases h
            · intro left f
              constructor
              · intro h; cases h
                exact .missing st (by rw [htype]; exact .scalar st) (by rw [htype]; intro h; cases h; exact hb rfl) rfl (hi rfl)
              · intro h
                generalize hx : List.map text [] = ys at h
                cases h with
                | again _ _ _ _ hp => cases hp
                | several => cases hx
                | missing => rfl
                | wrong => cases hx
                | wrongElement st good x rest vs ws k s h => rw [htype] at h; cases h
                | otherType st _ _ h => rw [htype] at h; cases h
                | otherElement st good x v rest vs ws h => rw [htype] at h; cases h
                | notVector st _ _ h => rw [htype] at h; cases h
        | x :: y :: zs, hi, hi' =>
          rw [F.several]
          constructor
          · intro left
            refine ⟨nofun, ?_⟩
            rintro ⟨a, rfl, h⟩
            generalize hx : List.map text (x :: y :: zs) = ys at h
            cases h with
            | implicit => cases hx
            | scalar => cases hx
            | present => cases hx
            | vector st _ vs ws h => rw [htype] at h; cases h
            | optional st _ _ h => rw [htype] at h; cases h
          · intro left f
            constructor
            · intro h; cases h
              exact .several st _ _ _ (by rw [htype]; exact .scalar st) rfl
            · intro h
              generalize hx : List.map text (x :: y :: zs) = ys at h
              cases h with
              | again _ _ _ _ hp => cases hp
              | several => rfl
              | missing => cases hx
              | wrong => cases hx
              | wrongElement st good x rest vs ws k s h => rw [htype] at h; cases h
              | otherType st _ _ h => rw [htype] at h; cases h
              | otherElement st good x v rest vs ws h => rw [htype] at h; cases h
              | notVector st _ _ h => rw [htype] at h; cases h
        | [x], hi, hi' =>
          rcases scalar_facts F st x with ⟨v, e1, hc, hu, hn⟩ | ⟨k, s, e1, hr, hn, hu⟩
          · rw [e1]
            constructor
            · intro left
              constructor
              · intro h; cases h; exact ⟨_, rfl, .scalar st _ v htype rfl hc⟩
              · rintro ⟨a, rfl, h⟩
                generalize hx : List.map text [x] = ys at h
                cases h with
                | implicit => cases hx
                | scalar st' _ v' h hp hc' =>
                  rw [htype] at h; cases h
                  cases hx
                  rw [hu _ hc']
                | present => cases hx
                | vector st _ vs ws h => rw [htype] at h; cases h
                | optional st _ _ h => rw [htype] at h; cases h
            · intro left f
              refine ⟨nofun, ?_⟩
              intro h
              generalize hx : List.map text [x] = ys at h
              cases h with
              | again _ _ _ _ hp => cases hp
              | several => cases hx
              | missing => cases hx
              | wrong st' _ k s h hp hr =>
                rw [htype] at h; cases h
                cases hx
                exact absurd hr (hn _ _)
              | wrongElement st good x rest vs ws k s h => rw [htype] at h; cases h
              | otherType st _ _ h => rw [htype] at h; cases h
              | otherElement st good x v rest vs ws h => rw [htype] at h; cases h
              | notVector st _ _ h => rw [htype] at h; cases h
          · rw [e1]
            constructor
            · intro left
              refine ⟨nofun, ?_⟩
              rintro ⟨a, rfl, h⟩
              generalize hx : List.map text [x] = ys at h
              cases h with
              | implicit => cases hx
              | scalar st' _ v' h hp hc' =>
                rw [htype] at h; cases h
                cases hx
                exact absurd hc' (hn _)
              | present => cases hx
              | vector st _ vs ws h => rw [htype] at h; cases h
              | optional st _ _ h => rw [htype] at h; cases h
            · intro left f
              constructor
              · intro h; cases h
                exact .wrong st _ k s (by rw [htype]; exact .scalar st) rfl hr
              · intro h
                generalize hx : List.map text [x] = ys at h
                cases h with
                | again _ _ _ _ hp => cases hp
                | several => cases hx
                | missing => cases hx
                | wrong st' _ k' s' h hp hr' =>
                  rw [htype] at h; cases h
                  cases hx
                  rw [hu _ _ hr']
                | wrongElement st good x rest vs ws k s h => rw [htype] at h; cases h
                | otherType st _ _ h => rw [htype] at h; cases h
                | otherElement st good x v rest vs ws h => rw [htype] at h; cases h
                | notVector st _ _ h => rw [htype] at h; cases h
    | optional st =>
      cases prev with
      | some a0 =>
        simp only [validate]
        constructor
        · intro left
          refine ⟨nofun, ?_⟩
          rintro ⟨a, rfl, h⟩
          generalize hx : xs.map text = ys at h
          cases h with
          | implicit iv' s' h => rw [hi (List.map_eq_nil_iff.1 hx)] at h; cases h
          | scalar _ _ _ _ hp => cases hp
          | present _ hp => cases hp
          | vector st _ vs ws h => rw [htype] at h; cases h
          | optional _ _ _ _ hp => cases hp
        · intro left f
          constructor
          · intro h; cases h
            exact .again st _ a0 (by rw [htype]; exact .optional st) rfl hi'
          · intro h
            generalize hx : xs.map text = ys at h
            cases h with
            | again => rfl
            | several _ _ _ _ _ hp => cases hp
            | missing _ _ _ hp => cases hp
            | wrong _ _ _ _ _ hp => cases hp
            | wrongElement st good x rest vs ws k s h => rw [htype] at h; cases h
            | otherType _ _ _ _ hp => cases hp
            | otherElement st good x v rest vs ws h => rw [htype] at h; cases h
            | notVector st _ _ h => rw [htype] at h; cases h
      | none =>
        simp only [validate]
        match xs, hi, hi' with
        | [], hi, hi' =>
          constructor
          · intro left
            refine ⟨nofun, ?_⟩
            rintro ⟨a, rfl, h⟩
            generalize hx : List.map text [] = ys at h
            cases h with
            | implicit iv' s' h => rw [hi rfl] at h; cases h
            | scalar => cases hx
            | present h => rw [htype] at h; cases h
            | vector st _ vs ws h => rw [htype] at h; cases h
            | optional => cases hx
          · intro left f
            constructor
            · intro h; cases h
              exact .missing st (by rw [htype]; exact .optional st) (by rw [htype]; nofun) rfl (hi rfl)
            · intro h
              generalize hx : List.map text [] = ys at h
              cases h with
              | again _ _ _ _ hp => cases hp
              | several => cases hx
              | missing => rfl
              | wrong => cases hx
              | wrongElement st good x rest vs ws k s h => rw [htype] at h; cases h
              | otherType => cases hx
              | otherElement st good x v rest vs ws h => rw [htype] at h; cases h
              | notVector st _ _ h => rw [htype] at h; cases h
        | x :: y :: zs, hi, hi' =>
          constructor
          · intro left
            refine ⟨nofun, ?_⟩
            rintro ⟨a, rfl, h⟩
            generalize hx : List.map text (x :: y :: zs) = ys at h
            cases h with
            | implicit => cases hx
            | scalar => cases hx
            | present => cases hx
            | vector st _ vs ws h => rw [htype] at h; cases h
            | optional => cases hx
          · intro left f
            constructor
            · intro h; cases h
              exact .several st _ _ _ (by rw [htype]; exact .optional st) rfl
            · intro h
              generalize hx : List.map text (x :: y :: zs) = ys at h
              cases h with
              | again _ _ _ _ hp => cases hp
              | several => rfl
              | missing => cases hx
              | wrong => cases hx
              | wrongElement st good x rest vs ws k s h => rw [htype] at h; cases h
              | otherType => cases hx
              | otherElement st good x v rest vs ws h => rw [htype] at h; cases h
              | notVector st _ _ h => rw [htype] at h; cases h
        | [x], hi, hi' =>
          rcases scalar_facts F st x with ⟨v, e1, hc, hu, hn⟩ | ⟨k, s, e1, hr, hn, hu⟩
          · simp only [e1]
            by_cases ht : v.type = st
            · simp only [if_pos ht]
              constructor
              · intro left
                constructor
                · intro h; cases h; exact ⟨_, rfl, .optional st _ v htype rfl hc ht⟩
                · rintro ⟨a, rfl, h⟩
                  generalize hx : List.map text [x] = ys at h
                  cases h with
                  | implicit => cases hx
                  | optional st' _ v' h hp hc' =>
                    rw [htype] at h; cases h
                    cases hx
                    rw [hu _ hc']
                  | present => cases hx
                  | vector st _ vs ws h => rw [htype] at h; cases h
                  | scalar st _ _ h => rw [htype] at h; cases h
              · intro left f
                refine ⟨nofun, ?_⟩
                intro h
                generalize hx : List.map text [x] = ys at h
                cases h with
                | again _ _ _ _ hp => cases hp
                | several => cases hx
                | missing => cases hx
                | wrong st' _ k s h hp hr =>
                  rw [htype] at h; cases h
                  cases hx
                  exact absurd hr (hn _ _)
                | wrongElement st good x rest vs ws k s h => rw [htype] at h; cases h
                | otherType st' _ v' h hp hc' ht' =>
                  rw [htype] at h; cases h
                  cases hx
                  rw [hu _ hc'] at ht'; exact absurd ht ht'
                | otherElement st good x v rest vs ws h => rw [htype] at h; cases h
                | notVector st _ _ h => rw [htype] at h; cases h
            · simp only [if_neg ht]
              constructor
              · intro left
                refine ⟨nofun, ?_⟩
                rintro ⟨a, rfl, h⟩
                generalize hx : List.map text [x] = ys at h
                cases h with
                | implicit => cases hx
                | optional st' _ v' h hp hc' ht' =>
                  rw [htype] at h; cases h
                  cases hx
                  rw [hu _ hc'] at ht'; exact absurd ht' ht
                | present => cases hx
                | vector st _ vs ws h => rw [htype] at h; cases h
                | scalar st _ _ h => rw [htype] at h; cases h
              · intro left f
                constructor
                · intro h; cases h
                  exact .otherType st _ v htype rfl hc ht
                · intro h
                  generalize hx : List.map text [x] = ys at h
                  cases h with
                  | again _ _ _ _ hp => cases hp
                  | several => cases hx
                  | missing => cases hx
                  | wrong st' _ k s h hp hr =>
                    rw [htype] at h; cases h
                    cases hx
                    exact absurd hr (hn _ _)
                  | wrongElement st good x rest vs ws k s h => rw [htype] at h; cases h
                  | otherType => rfl
                  | otherElement st good x v rest vs ws h => rw [htype] at h; cases h
                  | notVector st _ _ h => rw [htype] at h; cases h
          · simp only [e1]
            constructor
            · intro left
              refine ⟨nofun, ?_⟩
              rintro ⟨a, rfl, h⟩
              generalize hx : List.map text [x] = ys at h
              cases h with
              | implicit => cases hx
              | optional st' _ v' h hp hc' =>
                rw [htype] at h; cases h
                cases hx
                exact absurd hc' (hn _)
              | present => cases hx
              | vector st _ vs ws h => rw [htype] at h; cases h
              | scalar st _ _ h => rw [htype] at h; cases h
            · intro left f
              constructor
              · intro h; cases h
                exact .wrong st _ k s (by rw [htype]; exact .optional st) rfl hr
              · intro h
                generalize hx : List.map text [x] = ys at h
                cases h with
                | again _ _ _ _ hp => cases hp
                | several => cases hx
                | missing => cases hx
                | wrong st' _ k' s' h hp hr' =>
                  rw [htype] at h; cases h
                  cases hx
                  rw [hu _ _ hr']
                | wrongElement st good x rest vs ws k s h => rw [htype] at h; cases h
                | otherType st' _ v' h hp hc' ht' =>
                  rw [htype] at h; cases h
                  cases hx
                  exact absurd hc' (hn _)
                | otherElement st good x v rest vs ws h => rw [htype] at h; cases h
                | notVector st _ _ h => rw [htype] at h; cases h
    | vector st =>
      by_cases hel : ∃ vs, Elements st prev vs
      · obtain ⟨vs, hel⟩ := hel
        have hun : ∀ vs', Elements st prev vs' → vs' = vs := by
          intro vs' h'; cases hel <;> cases h' <;> rfl
        have ev : validate scalar (.vector st) prev xs =
            (some (.vector st (validateVecLoop (scalar st) st vs xs).1), (validateVecLoop (scalar st) st vs xs).2) := by
          cases hel with
          | none => rfl
          | some vs => simp [validate]
        obtain ⟨l1, l2⟩ := vecLoop_iff F st vs xs
        rw [ev]
        constructor
        · intro left
          constructor
          · intro h
            injection h with h1 h2
            obtain ⟨ws, e1, e2⟩ := (l1 (validateVecLoop (scalar st) st vs xs).fst).1 (Prod.ext rfl h2)
            refine ⟨_, h1.symm, ?_⟩
            rw [e1]
            exact .vector st _ vs ws htype hel hi' e2
          · rintro ⟨a, rfl, h⟩
            generalize hx : List.map text xs = ys at h
            cases h with
            | implicit iv' s' h => rw [hi (List.map_eq_nil_iff.1 hx)] at h; cases h
            | scalar _ _ _ h => rw [htype] at h; cases h
            | present h => rw [htype] at h; cases h
            | vector st' _ vs' ws h hp hi hc =>
              rw [htype] at h; cases h
              cases hun _ hp
              rw [(l1 _).2 ⟨ws, rfl, by rw [hx]; exact hc⟩]
            | optional _ _ _ h => rw [htype] at h; cases h
        · intro left f
          constructor
          · intro h
            injection h with h1 h2
            obtain ⟨good, x, rest, ws, e1, e2, e3, hb⟩ := (l2 (validateVecLoop (scalar st) st vs xs).fst f).1 (Prod.ext rfl h2)
            subst h1
            rw [e2, e1]
            rcases hb with ⟨k, s, hr, rfl⟩ | ⟨v, hv, ht, rfl⟩
            · exact .wrongElement st good x rest vs ws k s htype hel e3 hr
            · exact .otherElement st good x v rest vs ws htype hel e3 hv ht
          · intro h
            have e0 : ∀ st', Single t.type st' → False := by rw [htype]; nofun
            generalize hx : List.map text xs = ys at h
            cases h with
            | again st' _ _ h => exact absurd h (e0 _)
            | several st' _ _ _ h => exact absurd h (e0 _)
            | missing st' h => exact absurd h (e0 _)
            | wrong st' _ _ _ h => exact absurd h (e0 _)
            | wrongElement st' good x rest vs' ws k s h hp hc hr =>
              rw [htype] at h; cases h
              cases hun _ hp
              rw [(l2 _ _).2 ⟨good, x, rest, ws, hx, rfl, hc, .inl ⟨k, s, hr, rfl⟩⟩]
            | otherType st _ _ h => rw [htype] at h; cases h
            | otherElement st' good x v rest vs' ws h hp hc hv ht =>
              rw [htype] at h; cases h
              cases hun _ hp
              rw [(l2 _ _).2 ⟨good, x, rest, ws, hx, rfl, hc, .inr ⟨v, hv, ht, rfl⟩⟩]
            | notVector st' _ a h hp ha =>
              rw [htype] at h; cases h
              subst hp
              cases hel; exact absurd rfl ha
      · have ev : ∃ a, prev = some a ∧ a.type ≠ .vector st ∧ validate scalar (.vector st) prev xs = (prev, some (.ub .wrongVectorType)) := by
          cases prev with
          | none => exact absurd ⟨[], .none⟩ hel
          | some a =>
            cases a with
            | scalar v => exact ⟨_, rfl, nofun, rfl⟩
            | optional st' v => exact ⟨_, rfl, nofun, rfl⟩
            | vector st' vs =>
              have : st' ≠ st := fun h => hel ⟨vs, by rw [h]; exact .some vs⟩
              exact ⟨_, rfl, fun h => this (by injection h), by simp [validate, this]⟩
        obtain ⟨a, hp, ha, ev⟩ := ev
        rw [ev]
        constructor
        · intro left
          refine ⟨nofun, ?_⟩
          rintro ⟨b, rfl, h⟩
          generalize hx : List.map text xs = ys at h
          cases h with
          | implicit iv' s' h => rw [hi (List.map_eq_nil_iff.1 hx)] at h; cases h
          | scalar _ _ _ h => rw [htype] at h; cases h
          | present h => rw [htype] at h; cases h
          | vector st' _ vs' ws h hp => rw [htype] at h; cases h; exact absurd ⟨_, hp⟩ hel
          | optional _ _ _ h => rw [htype] at h; cases h
        · intro left f
          constructor
          · intro h; cases h
            exact .notVector st _ a htype hp ha hi'
          · intro h
            have e0 : ∀ st', Single t.type st' → False := by rw [htype]; nofun
            generalize hx : List.map text xs = ys at h
            cases h with
            | again st' _ _ h => exact absurd h (e0 _)
            | several st' _ _ _ h => exact absurd h (e0 _)
            | missing st' h => exact absurd h (e0 _)
            | wrong st' _ _ _ h => exact absurd h (e0 _)
            | wrongElement st' good x rest vs' ws k s h hp => rw [htype] at h; cases h; exact absurd ⟨_, hp⟩ hel
            | otherType st _ _ h => rw [htype] at h; cases h
            | otherElement st' good x v rest vs' ws h hp => rw [htype] at h; cases h; exact absurd ⟨_, hp⟩ hel
            | notVector => rfl

end generic

theorem mapM_some_iff {α β : Type} (f : α → Option β) (xs : List α) (ys : List β) :
    xs.mapM f = some ys ↔ List.Forall₂ (fun x y => f x = some y) xs ys := by
  induction xs generalizing ys with
  | nil =>
    constructor
    · intro h; cases h; exact .nil
    · intro h; cases h; rfl
  | cons x xs ih =>
    rw [List.mapM_cons]
    cases hx : f x with
    | none => exact ⟨nofun, fun h => by cases h with | cons h _ => rw [hx] at h; cases h⟩
    | some y =>
      cases hm : xs.mapM f with
      | none =>
        refine ⟨nofun, fun h => ?_⟩
        cases h with | cons h t => rw [(ih _).2 t] at hm; cases hm
      | some zs =>
        constructor
        · intro h; cases h; exact .cons hx ((ih _).1 hm)
        · intro h
          cases h with
          | cons h t => rw [hx] at h; cases h; rw [(ih _).2 t] at hm; cases hm; rfl

theorem mapM_none_iff {α β : Type} (f : α → Option β) (xs : List α) : xs.mapM f = none ↔ ∃ x ∈ xs, f x = none := by
  induction xs with
  | nil => exact ⟨nofun, fun ⟨_, h, _⟩ => by cases h⟩
  | cons x xs ih =>
    rw [List.mapM_cons]
    cases hx : f x with
    | none => exact ⟨fun _ => ⟨x, by simp, hx⟩, fun _ => rfl⟩
    | some y =>
      cases hm : xs.mapM f with
      | none =>
        obtain ⟨z, hz, e⟩ := ih.1 hm
        exact ⟨fun _ => ⟨z, by simp [hz], e⟩, fun _ => rfl⟩
      | some zs =>
        refine ⟨nofun, ?_⟩
        rintro ⟨z, hz, e⟩
        rcases List.mem_cons.1 hz with rfl | hz
        · rw [hx] at e; cases e
        · rw [ih.2 ⟨z, hz, e⟩] at hm; cases hm

/-- How the texts arrive, as a function. -/
theorem arrives_map {α : Type} (env : Env) (wide utf8 : Bool) (conv : Str → Option α) (text : α → Word)
    (h : ∀ tok x, Arrives env wide utf8 tok x ↔ ∃ y, conv tok = some y ∧ x = text y) (toks : List Str) (xs : List Word) :
    List.Forall₂ (Arrives env wide utf8) toks xs ↔ ∃ ys, toks.mapM conv = some ys ∧ xs = ys.map text := by
  simp only [mapM_some_iff]
  induction toks generalizing xs with
  | nil =>
    constructor
    · intro h; cases h; exact ⟨[], .nil, rfl⟩
    · rintro ⟨ys, h, rfl⟩; cases h; exact .nil
  | cons tok toks ih =>
    constructor
    · intro ha
      cases ha with
      | cons h1 h2 =>
        obtain ⟨y, e1, rfl⟩ := (h _ _).1 h1
        obtain ⟨ys, e2, rfl⟩ := (ih _).1 h2
        exact ⟨y :: ys, .cons e1 e2, rfl⟩
    · rintro ⟨ys, ha, rfl⟩
      cases ha with
      | cons h1 h2 => exact .cons ((h _ _).2 ⟨_, h1, rfl⟩) ((ih _).2 ⟨_, h2, rfl⟩)

/-- What `parse` does once the tokens are converted. -/
theorem parse_conv {α : Type} {env : Env} {scalar : SType → List α → Except Fail SVal} {text : α → Word} (F : ScalarFaithful env scalar text)
    (t : TypedValue) (utf8 : Bool) (conv : Str → Option α) (hc : ∀ tok x, Arrives env t.wide utf8 tok x ↔ ∃ y, conv tok = some y ∧ x = text y)
    (prev : Any) (toks : List Str)
    (hp : t.parse env prev toks utf8 = match toks.mapM conv with | none => (prev, some .conversion) | some ys => TypedValue.xparse scalar t prev ys) :
    (∀ left, t.parse env prev toks utf8 = (left, none) ↔
      ∃ xs a, List.Forall₂ (Arrives env t.wide utf8) toks xs ∧ Takes env t prev xs a ∧ left = some a) ∧
    (∀ left f, t.parse env prev toks utf8 = (left, some f) ↔
      (∃ tok ∈ toks, ∀ x, ¬ Arrives env t.wide utf8 tok x) ∧ left = prev ∧ f = .conversion ∨
      ∃ xs, List.Forall₂ (Arrives env t.wide utf8) toks xs ∧ Refuses env t prev xs left f) := by
  rw [hp]
  simp only [arrives_map env t.wide utf8 conv text hc]
  cases hm : toks.mapM conv with
  | none =>
    obtain ⟨tok, h1, h2⟩ := (mapM_none_iff _ _).1 hm
    have hno : ∃ tok ∈ toks, ∀ x, ¬ Arrives env t.wide utf8 tok x :=
      ⟨tok, h1, fun x hx => by obtain ⟨y, hy, -⟩ := (hc _ _).1 hx; rw [h2] at hy; cases hy⟩
    constructor
    · intro left
      exact ⟨nofun, fun ⟨_, _, ⟨_, h, _⟩, _⟩ => by cases h⟩
    · intro left f
      constructor
      · intro h; cases h; exact .inl ⟨hno, rfl, rfl⟩
      · rintro (⟨-, rfl, rfl⟩ | ⟨_, ⟨_, h, _⟩, _⟩)
        · rfl
        · cases h
  | some ys =>
    obtain ⟨i1, i2⟩ := xparse_iff F t prev ys
    have hyes : ¬ ∃ tok ∈ toks, ∀ x, ¬ Arrives env t.wide utf8 tok x := by
      rintro ⟨tok, h1, h2⟩
      have : toks.mapM conv = none := (mapM_none_iff _ _).2 ⟨tok, h1, by
        cases h : conv tok with
        | none => rfl
        | some y => exact absurd ((hc _ _).2 ⟨y, h, rfl⟩) (h2 _)⟩
      rw [hm] at this; cases this
    constructor
    · intro left
      dsimp only
      rw [i1]
      constructor
      · rintro ⟨a, rfl, h⟩; exact ⟨_, a, ⟨ys, rfl, rfl⟩, h, rfl⟩
      · rintro ⟨xs, a, ⟨ys', e, rfl⟩, h, rfl⟩
        cases e; exact ⟨a, rfl, h⟩
    · intro left f
      dsimp only
      rw [i2]
      constructor
      · intro h; exact .inr ⟨_, ⟨ys, rfl, rfl⟩, h⟩
      · rintro (⟨h, -⟩ | ⟨xs, ⟨ys', e, rfl⟩, h⟩)
        · exact absurd h hyes
        · cases e; exact h

theorem parse_iff (env : Env) (t : TypedValue) (prev : Any) (toks : List Str) (utf8 : Bool) :
    (∀ left, t.parse env prev toks utf8 = (left, none) ↔
      ∃ xs a, List.Forall₂ (Arrives env t.wide utf8) toks xs ∧ Takes env t prev xs a ∧ left = some a) ∧
    (∀ left f, t.parse env prev toks utf8 = (left, some f) ↔
      (∃ tok ∈ toks, ∀ x, ¬ Arrives env t.wide utf8 tok x) ∧ left = prev ∧ f = .conversion ∨
      ∃ xs, List.Forall₂ (Arrives env t.wide utf8) toks xs ∧ Refuses env t prev xs left f) := by
  cases hw : t.wide with
  | true =>
    rw [← hw]
    refine parse_conv (faithful_wide env) t utf8 (if utf8 then env.fromUtf8 else env.fromLocal) ?_ prev toks ?_
    · intro tok x
      rw [hw]
      cases utf8
      · constructor
        · intro h; cases h with | widened _ w h => exact ⟨w, h, rfl⟩
        · rintro ⟨y, h, rfl⟩; exact .widened _ _ h
      · constructor
        · intro h; cases h with | decoded _ w h => exact ⟨w, h, rfl⟩
        · rintro ⟨y, h, rfl⟩; exact .decoded _ _ h
    · unfold TypedValue.parse
      rw [if_pos hw]
      generalize List.mapM (if utf8 = true then env.fromUtf8 else env.fromLocal) toks = r
      cases r <;> rfl
  | false =>
    rw [← hw]
    cases utf8 with
    | true =>
      refine parse_conv (faithful_narrow env) t true (fun s => (env.fromUtf8 s).bind env.toLocal) ?_ prev toks ?_
      · intro tok x
        rw [hw]
        constructor
        · intro h; cases h with | recoded _ s w h1 h2 => exact ⟨s, by simp [h1, h2], rfl⟩
        · rintro ⟨y, h, rfl⟩
          obtain ⟨w, h1, h2⟩ := Option.bind_eq_some_iff.1 h
          exact .recoded _ _ w h1 h2
      · unfold TypedValue.parse
        rw [if_neg (by rw [hw]; simp), if_pos rfl]
        generalize List.mapM (fun s => (env.fromUtf8 s).bind env.toLocal) toks = r
        cases r <;> rfl
    | false =>
      refine parse_conv (faithful_narrow env) t false some ?_ prev toks ?_
      · intro tok x
        rw [hw]
        constructor
        · intro h; cases h; exact ⟨_, rfl, rfl⟩
        · rintro ⟨y, h, rfl⟩; cases h; exact .same _
      · unfold TypedValue.parse
        rw [if_neg (by rw [hw]; simp), if_neg (by simp)]
        have : toks.mapM some = some toks := by
          induction toks with
          | nil => rfl
          | cons a as ih => rw [List.mapM_cons, ih]; rfl
        rw [this]

/-- **C82.** An option declared through `value` or `wvalue` gets exactly the value that the rules `Takes` give for the texts that arrive. -/
theorem C82_value (env : Env) (t : TypedValue) (prev : Any) (toks : List Str) (utf8 : Bool) (a : AVal) :
    (t.toSemantic env).parse prev toks utf8 = (some a, none) ↔
      ∃ xs, List.Forall₂ (Arrives env t.wide utf8) toks xs ∧ Takes env t prev xs a := by
  refine ((parse_iff env t prev toks utf8).1 _).trans ?_
  constructor
  · rintro ⟨xs, a', h1, h2, e⟩; cases e; exact ⟨xs, h1, h2⟩
  · rintro ⟨xs, h1, h2⟩; exact ⟨xs, a, h1, h2, rfl⟩

/-- It throws exactly the exceptions of the rules `Refuses`, or one about the character set, and is left with the value given there. -/
theorem C82_refused (env : Env) (t : TypedValue) (prev : Any) (toks : List Str) (utf8 : Bool) (left : Any) (f : Fail) :
    (t.toSemantic env).parse prev toks utf8 = (left, some f) ↔
      (∃ tok ∈ toks, ∀ x, ¬ Arrives env t.wide utf8 tok x) ∧ left = prev ∧ f = .conversion ∨
      ∃ xs, List.Forall₂ (Arrives env t.wide utf8) toks xs ∧ Refuses env t prev xs left f :=
  (parse_iff env t prev toks utf8).2 left f

/-- An option without declared type: the only token, or no text; it may be given once. -/
theorem C82_untyped (env : Env) (zero : Bool) (prev : Any) (toks : List Str) (utf8 : Bool) (left : Any) (f : Option Fail) :
    (untypedValue env zero).parse prev toks utf8 = (left, f) ↔
      (∃ tok ∈ toks, ∀ x, ¬ Arrives env false utf8 tok x) ∧ left = prev ∧ f = some .conversion ∨
      ∃ xs, List.Forall₂ (Arrives env false utf8) toks xs ∧
        (prev ≠ none ∧ left = prev ∧ f = some (objection .multipleOccurrences none) ∨
         prev = none ∧ xs = [] ∧ left = some (.scalar (.str [])) ∧ f = none ∨
         (∃ s, prev = none ∧ xs = [.narrow s] ∧ left = some (.scalar (.str s)) ∧ f = none) ∨
         prev = none ∧ 2 ≤ xs.length ∧ left = none ∧ f = some (objection .multipleValues none)) := by
  have go : ∀ ys : List Str, (match prev with
      | some _ => (prev, some errMultipleOccurrences)
      | none =>
        match ys with
        | [] => (some (.scalar (.str [])), none)
        | [x] => (some (.scalar (.str x)), none)
        | _ :: _ :: _ => (none, some errMultipleValues)) = (left, f) ↔
      (prev ≠ none ∧ left = prev ∧ f = some (objection .multipleOccurrences none) ∨
         prev = none ∧ ys.map Word.narrow = [] ∧ left = some (.scalar (.str [])) ∧ f = none ∨
         (∃ s, prev = none ∧ ys.map Word.narrow = [.narrow s] ∧ left = some (.scalar (.str s)) ∧ f = none) ∨
         prev = none ∧ 2 ≤ (ys.map Word.narrow).length ∧ left = none ∧ f = some (objection .multipleValues none)) := by
    intro ys
    cases prev with
    | some a =>
      constructor
      · intro h; cases h; exact .inl ⟨nofun, rfl, rfl⟩
      · rintro (⟨-, rfl, rfl⟩ | ⟨h, -⟩ | ⟨_, h, -⟩ | ⟨h, -⟩)
        · rfl
        all_goals cases h
    | none =>
      match ys with
      | [] =>
        constructor
        · intro h; cases h; exact .inr (.inl ⟨rfl, rfl, rfl, rfl⟩)
        · rintro (⟨h, -⟩ | ⟨-, -, rfl, rfl⟩ | ⟨_, -, h, -⟩ | ⟨-, h, -⟩)
          · exact absurd rfl h
          · rfl
          · cases h
          · simp at h
      | [x] =>
        constructor
        · intro h; cases h; exact .inr (.inr (.inl ⟨x, rfl, rfl, rfl, rfl⟩))
        · rintro (⟨h, -⟩ | ⟨-, h, -⟩ | ⟨_, -, h, rfl, rfl⟩ | ⟨-, h, -⟩)
          · exact absurd rfl h
          · cases h
          · cases h; rfl
          · simp at h
      | x :: y :: zs =>
        constructor
        · intro h; cases h; exact .inr (.inr (.inr ⟨rfl, by simp, rfl, rfl⟩))
        · rintro (⟨h, -⟩ | ⟨-, h, -⟩ | ⟨_, -, h, -⟩ | ⟨-, -, rfl, rfl⟩)
          · exact absurd rfl h
          · cases h
          · cases h
          · rfl
  cases utf8 with
  | true =>
    have hc : ∀ tok x, Arrives env false true tok x ↔ ∃ y, (env.fromUtf8 tok).bind env.toLocal = some y ∧ x = .narrow y := by
      intro tok x
      constructor
      · intro h; cases h with | recoded _ s w h1 h2 => exact ⟨s, by simp [h1, h2], rfl⟩
      · rintro ⟨y, h, rfl⟩
        obtain ⟨w, h1, h2⟩ := Option.bind_eq_some_iff.1 h
        exact .recoded _ _ w h1 h2
    simp only [arrives_map env false true _ _ hc]
    unfold untypedValue
    dsimp only
    rw [if_pos rfl]
    cases hm : toks.mapM (fun s => (env.fromUtf8 s).bind env.toLocal) with
    | none =>
      obtain ⟨tok, h1, h2⟩ := (mapM_none_iff _ _).1 hm
      have hno : ∃ tok ∈ toks, ∀ x, ¬ Arrives env false true tok x :=
        ⟨tok, h1, fun x hx => by obtain ⟨y, hy, -⟩ := (hc _ _).1 hx; rw [h2] at hy; cases hy⟩
      constructor
      · intro h; cases h; exact .inl ⟨hno, rfl, rfl⟩
      · rintro (⟨-, rfl, rfl⟩ | ⟨_, ⟨_, h, _⟩, _⟩)
        · rfl
        · cases h
    | some ys =>
      have hyes : ¬ ∃ tok ∈ toks, ∀ x, ¬ Arrives env false true tok x := by
        rintro ⟨tok, h1, h2⟩
        have := (mapM_none_iff (fun s => (env.fromUtf8 s).bind env.toLocal) toks).2 ⟨tok, h1, by
          cases h : (env.fromUtf8 tok).bind env.toLocal with
          | none => rfl
          | some y => exact absurd ((hc _ _).2 ⟨y, h, rfl⟩) (h2 _)⟩
        rw [hm] at this; cases this
      dsimp only
      refine (go ys).trans ?_
      constructor
      · intro h; exact .inr ⟨_, ⟨ys, rfl, rfl⟩, h⟩
      · rintro (⟨h, -⟩ | ⟨xs, ⟨ys', e, rfl⟩, h⟩)
        · exact absurd h hyes
        · cases e; exact h
  | false =>
    have hf : ∀ xs, List.Forall₂ (Arrives env false false) toks xs ↔ xs = toks.map Word.narrow := by
      intro xs
      rw [arrives_map env false false some Word.narrow (fun tok x => ⟨fun h => by cases h; exact ⟨_, rfl, rfl⟩, by rintro ⟨y, h, rfl⟩; cases h; exact .same _⟩)]
      have : toks.mapM some = some toks := by
        induction toks with
        | nil => rfl
        | cons a as ih => rw [List.mapM_cons, ih]; rfl
      rw [this]
      exact ⟨fun ⟨_, e, h⟩ => by cases e; exact h, fun h => ⟨_, rfl, h⟩⟩
    simp only [hf]
    unfold untypedValue
    dsimp only
    rw [if_neg (by simp)]
    refine (go toks).trans ?_
    constructor
    · intro h; exact .inr ⟨_, rfl, h⟩
    · rintro (⟨⟨tok, -, h⟩, -⟩ | ⟨xs, rfl, h⟩)
      · exact absurd (.same tok) (h _)
      · exact h

/-- A vector of booleans: the first element is kept, the second one refused, and quoted in lower case. -/
example : (TypedValue.toSemantic Test.env { type := .vector .bool }).parse none [Test.L "YES", Test.L "Maybe", Test.L "no"] false =
    (some (.vector .bool [.bool true]), some (objection (.validation .invalidBoolValue) (some (Test.L "maybe")))) := rfl

/-- The same by the rules. -/
example : Refuses Test.env { type := .vector .bool } none [.narrow (Test.L "YES"), .narrow (Test.L "Maybe"), .narrow (Test.L "no")]
    (some (.vector .bool [.bool true])) (objection (.validation .invalidBoolValue) (some (Test.L "maybe"))) :=
  .wrongElement .bool [.narrow (Test.L "YES")] (.narrow (Test.L "Maybe")) [.narrow (Test.L "no")] [] [.bool true] _ _ rfl .none
    (.cons ⟨.yes _ (Test.L "yes") (by decide) rfl, rfl⟩ .nil) (.bool _ (by
      have h : ∀ word ∈ yesWords ++ noWords, (Test.L "Maybe").map Char.toLower ≠ word := by decide
      exact h))

/-- `wvalue<std::string>` makes a wide string; a vector of these cannot be read. -/
example : (TypedValue.toSemantic Test.env { type := .vector .str, wide := true }).parse none [Test.L "a"] false =
    (some (.vector .str []), some .badAnyCast) := rfl

end PO
