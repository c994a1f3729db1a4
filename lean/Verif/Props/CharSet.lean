import Verif.Spec.CharSet
import Verif.Props.Convert
/-
C115: `detail::convert` with facets that keep a conversion state.
-/
namespace PO
open Spec

section
variable {σ α β : Type} {cs : CharSet σ α β}

theorem Spec.Conveys.append {st st1 st2 : σ} {a b : List α} {o o' : List β} (h : Conveys cs st a o st1) (h' : Conveys cs st1 b o' st2) :
    Conveys cs st (a ++ b) (o ++ o') st2 := by
  induction h with
  | nil => exact h'
  | cons hu _ ih => rw [List.append_assoc]; exact .cons hu (ih h')

theorem Spec.Conveys.split {st st2 : σ} (a : List α) {b : List α} {out : List β} (h : Conveys cs st (a ++ b) out st2) :
    ∃ o o' st1, out = o ++ o' ∧ Conveys cs st a o st1 ∧ Conveys cs st1 b o' st2 := by
  induction a generalizing st out with
  | nil => exact ⟨[], out, st, rfl, .nil _, h⟩
  | cons c a ih =>
    cases h with
    | @cons _ st1 _ _ _ o1 out1 hu t =>
      obtain ⟨o, o', st3, rfl, h1, h2⟩ := ih t
      exact ⟨o1 ++ o, o', st3, by simp, .cons hu h1, h2⟩

theorem Spec.Conveys.unique {st st1 st2 : σ} {s : List α} {o o' : List β} (h : Conveys cs st s o st1) (h' : Conveys cs st s o' st2) :
    o = o' ∧ st1 = st2 := by
  induction h generalizing o' with
  | nil => cases h'; exact ⟨rfl, rfl⟩
  | cons hu _ ih =>
    cases h' with
    | cons hu' t =>
      rw [hu] at hu'
      cases hu'
      obtain ⟨rfl, rfl⟩ := ih t
      exact ⟨rfl, rfl⟩

theorem Spec.Conveys.last {st st2 : σ} {p : List α} {c : α} {out : List β} (h : Conveys cs st (p ++ [c]) out st2) :
    ∃ o o' st1, out = o ++ o' ∧ Conveys cs st p o st1 ∧ cs.unit st1 c = some (st2, o') := by
  obtain ⟨o, o', st1, e, h1, h2⟩ := h.split p
  cases h2 with
  | cons hu t =>
    cases t with
    | nil => exact ⟨o, _, st1, by simpa using e, h1, by simpa using hu⟩

/-- What the loop does. -/
theorem convertStateLoop_spec {facet : StateFacet σ α β} (hs : Serves cs facet) (hb : ∀ st c st' o, cs.unit st c = some (st', o) → o.length ≤ 32)
    (fuel : Nat) (st : σ) (s : List α) (res : List β) (hf : s.length < fuel) :
    (∃ out st', convertStateLoop facet fuel st s res = .ok (res ++ out) ∧ Conveys cs st s out st') ∨
    (convertStateLoop facet fuel st s res = .error .conversion ∧
      ((∃ a c b out st1, s = a ++ c :: b ∧ Conveys cs st a out st1 ∧ cs.unit st1 c = none) ∨
       (∃ out st', Conveys cs st s out st' ∧ QuietEnd cs st s ∧ (AtMostOne cs → 32 ∣ out.length)))) := by
  induction fuel generalizing st s res with
  | zero => omega
  | succ fuel ih =>
    cases s with
    | nil => exact .inl ⟨[], st, by simp [convertStateLoop], .nil _⟩
    | cons c s =>
      rw [convertStateLoop]
      rcases hr : facet st (c :: s) bufferSize with ⟨status, st', rest, out⟩
      obtain ⟨a, he, hd, hl, hok, herr, hpart⟩ := hs _ _ _ _ _ _ _ hr
      have go : status ≠ .error →
          (∃ out' st2, (if out = [] then Except.error Fail.conversion else convertStateLoop facet fuel st' rest (res ++ out)) = .ok (res ++ out') ∧
            Conveys cs st (c :: s) out' st2) ∨
          ((if out = [] then Except.error Fail.conversion else convertStateLoop facet fuel st' rest (res ++ out)) = .error .conversion ∧
            ((∃ a c' b out st1, c :: s = a ++ c' :: b ∧ Conveys cs st a out st1 ∧ cs.unit st1 c' = none) ∨
             (∃ out st', Conveys cs st (c :: s) out st' ∧ QuietEnd cs st (c :: s) ∧ (AtMostOne cs → 32 ∣ out.length)))) := by
        intro hne
        by_cases ho : out = []
        · rw [if_pos ho]
          refine .inr ⟨rfl, .inr ?_⟩
          subst ho
          have hrest : rest = [] := by
            cases status with
            | ok => exact hok rfl
            | error => exact absurd rfl hne
            | partial_ =>
              apply Classical.byContradiction
              intro hn
              rcases hpart rfl hn with h | ⟨c', r, st2, o, _, hu, hlt⟩
              · simp [bufferSize] at h
              · have := hb _ _ _ _ hu
                simp [bufferSize] at hlt
                omega
          rw [hrest, List.append_nil] at he
          refine ⟨[], st', he ▸ hd, ?_, fun _ => ⟨0, rfl⟩⟩
          rcases List.eq_nil_or_concat a with h0 | ⟨p, x, h0⟩
          · rw [h0] at he; cases he
          · rw [List.concat_eq_append] at h0
            rw [h0] at hd he
            obtain ⟨o, o', st1, e, h1, h2⟩ := hd.last
            obtain ⟨rfl, rfl⟩ := List.append_eq_nil_iff.1 e.symm
            exact ⟨p, x, [], st1, st', he, h1, h2⟩
        · rw [if_neg ho]
          have hshort : rest.length < fuel := by
            have : a ≠ [] := by
              rintro rfl
              cases hd
              exact ho rfl
            have h1 : (c :: s).length = a.length + rest.length := by rw [he]; simp
            have h2 := List.length_pos_iff.2 this
            omega
          rcases ih st' rest (res ++ out) hshort with ⟨o, st2, e, h⟩ | ⟨e, ⟨a', c', b, o, st1, e', h1, h2⟩ | ⟨o, st2, h, ⟨p, x, o1, st3, st4, ex, h3, h4⟩, hd'⟩⟩
          · exact .inl ⟨out ++ o, st2, by rw [e, List.append_assoc], he ▸ hd.append h⟩
          · exact .inr ⟨e, .inl ⟨a ++ a', c', b, out ++ o, st1, by rw [he, e']; simp, hd.append h1, h2⟩⟩
          · refine .inr ⟨e, .inr ⟨out ++ o, st2, he ▸ hd.append h, ⟨a ++ p, x, out ++ o1, st3, st4, by rw [he, ex]; simp, hd.append h3, h4⟩, ?_⟩⟩
            intro h1
            have hlen : out.length = 32 := by
              have hn : rest ≠ [] := by rw [ex]; simp
              cases status with
              | ok => exact absurd (hok rfl) hn
              | error => exact absurd rfl hne
              | partial_ =>
                rcases hpart rfl hn with h | ⟨c', r, st2, o, _, hu, hlt⟩
                · exact h
                · have := h1 _ _ _ _ hu
                  simp only [bufferSize] at hl hlt
                  omega
            obtain ⟨k, hk⟩ := hd' h1
            exact ⟨k + 1, by rw [List.length_append, hk, hlen]; omega⟩
      cases status with
      | error =>
        obtain ⟨c', r, e, hu⟩ := herr rfl
        exact .inr ⟨rfl, .inl ⟨a, c', r, out, st', by rw [he, e], hd, hu⟩⟩
      | ok => exact go (by simp)
      | partial_ => exact go (by simp)

/-- A prompt facet does not read over a quiet end behind a full buffer. -/
theorem convertStateLoop_prompt {facet : StateFacet σ α β} (hs : Serves cs facet) (hp : Prompt cs facet) (h1 : AtMostOne cs)
    (fuel : Nat) (st : σ) (s : List α) (res r : List β) (h : convertStateLoop facet fuel st s res = .ok r) (hq : QuietEnd cs st s)
    (out : List β) (st2 : σ) (hc : Conveys cs st s out st2) : ¬ 32 ∣ out.length := by
  induction fuel generalizing st s res out with
  | zero =>
    obtain ⟨p, c, _, _, _, rfl, _⟩ := hq
    cases p <;> simp [convertStateLoop] at h
  | succ fuel ih =>
    obtain ⟨p, x, o1, st3, st4, e, hcp, hux⟩ := hq
    cases s with
    | nil => cases p <;> cases e
    | cons c s =>
      rw [convertStateLoop] at h
      rcases hr : facet st (c :: s) bufferSize with ⟨status, st', rest, o⟩
      rw [hr] at h
      obtain ⟨a, he, hd, hl, hok, herr, hpart⟩ := hs _ _ _ _ _ _ _ hr
      have go : status ≠ .error → (if o = [] then Except.error Fail.conversion else convertStateLoop facet fuel st' rest (res ++ o)) = .ok r →
          ¬ 32 ∣ out.length := by
        intro hne h
        by_cases ho : o = []
        · rw [if_pos ho] at h; cases h
        rw [if_neg ho] at h
        have hpos := List.length_pos_iff.2 ho
        rw [he] at hc
        obtain ⟨o', o2, st5, rfl, hc1, hc2⟩ := hc.split a
        obtain ⟨rfl, rfl⟩ := hd.unique hc1
        by_cases hn : rest = []
        · subst hn
          cases hc2
          rw [List.append_nil] at he ⊢
          intro hdiv
          obtain ⟨k, hk⟩ := hdiv
          have hlen : o.length = 32 := by simp only [bufferSize] at hl; omega
          subst he
          rw [e] at hd
          obtain ⟨o3, o4, st6, e', h3, h4⟩ := hd.last
          obtain ⟨rfl, rfl⟩ := h3.unique hcp
          rw [hux] at h4
          cases h4
          have := hp _ _ _ _ _ _ _ hr p [x] o3 _ (by rw [e]; simp) (by simp) h3
          rw [List.append_nil] at e'
          rw [← e', hlen] at this
          simp [bufferSize] at this
        · have hlen : o.length = 32 := by
            cases status with
            | ok => exact absurd (hok rfl) hn
            | error => exact absurd rfl hne
            | partial_ =>
              rcases hpart rfl hn with h | ⟨c', r, st2, o, _, hu, hlt⟩
              · exact h
              · have := h1 _ _ _ _ hu
                simp only [bufferSize] at hl hlt
                omega
          have hq' : QuietEnd cs st' rest := by
            rcases List.eq_nil_or_concat rest with h0 | ⟨q, y, h0⟩
            · exact absurd h0 hn
            · rw [List.concat_eq_append] at h0
              subst h0
              obtain ⟨o3, o4, st6, e', h3, h4⟩ := hc2.last
              have hpe : p = a ++ q ∧ x = y := by
                rw [he, ← List.append_assoc] at e
                have := List.append_inj' e rfl
                exact ⟨this.1.symm, (List.cons.inj this.2).1.symm⟩
              obtain ⟨rfl, rfl⟩ := hpe
              have := hcp.unique (hd.append h3)
              rw [this.2] at hux
              exact ⟨q, x, o3, st6, st4, rfl, h3, hux⟩
          have := ih st' rest (res ++ o) h hq' o2 hc2
          rintro ⟨k, hk⟩
          rw [List.length_append, hlen] at hk
          exact this ⟨k - 1, by omega⟩
      cases status with
      | error => cases h
      | ok => exact go (by simp) h
      | partial_ => exact go (by simp) h

/-- **C115.** What is converted is read unit by unit, whatever the facet; -/
theorem C115_sound {facet : StateFacet σ α β} (hs : Serves cs facet) (hb : ∀ st c st' o, cs.unit st c = some (st', o) → o.length ≤ 32)
    (init : σ) (s : List α) (out : List β) (h : convertState facet init s = .ok out) : ∃ st, Conveys cs init s out st := by
  rcases convertStateLoop_spec hs hb (s.length + 1) init s [] (by omega) with ⟨o, st, e, hc⟩ | ⟨e, _⟩
  · rw [convertState, e] at h
    cases h
    exact ⟨st, hc⟩
  · rw [convertState, e] at h
    cases h

theorem Spec.AtMostOne.bound (h1 : AtMostOne cs) : ∀ st c st' o, cs.unit st c = some (st', o) → o.length ≤ 32 :=
  fun st c st' o h => Nat.le_trans (h1 st c st' o h) (by decide)

/-- and of the texts that end with a unit that completes something, exactly those with a meaning are converted: the size of the buffer does not
matter. -/
theorem C115_partial {facet : StateFacet σ α β} (hs : Serves cs facet) (hb : ∀ st c st' o, cs.unit st c = some (st', o) → o.length ≤ 32)
    (init : σ) (s : List α) (hq : ¬ QuietEnd cs init s) (out : List β) :
    convertState facet init s = .ok out ↔ ∃ st, Conveys cs init s out st := by
  refine ⟨C115_sound hs hb init s out, ?_⟩
  rintro ⟨st, hc⟩
  rcases convertStateLoop_spec hs hb (s.length + 1) init s [] (by omega) with ⟨o, st', e, hc'⟩ | ⟨e, ⟨a, c, b, o, st1, rfl, h1, h2⟩ | ⟨_, _, _, h, _⟩⟩
  · rw [convertState, e, (hc'.unique hc).1]
    rfl
  · obtain ⟨_, _, st2, _, h3, h4⟩ := hc.split a
    rw [← (h1.unique h3).2] at h4
    cases h4 with
    | cons hu _ => rw [h2] at hu; cases hu
  · exact absurd h hq

/-- The others depend on the buffer: they are converted, even if the last character is cut off, unless the characters before just fill it. -/
theorem C115_iff {facet : StateFacet σ α β} (hs : Serves cs facet) (hp : Prompt cs facet) (h1 : AtMostOne cs) (init : σ) (s : List α)
    (out : List β) :
    convertState facet init s = .ok out ↔ ∃ st, Conveys cs init s out st ∧ ¬ (QuietEnd cs init s ∧ 32 ∣ out.length) := by
  constructor
  · intro h
    obtain ⟨st, hc⟩ := C115_sound hs h1.bound init s out h
    refine ⟨st, hc, ?_⟩
    rintro ⟨hq, hd⟩
    exact convertStateLoop_prompt hs hp h1 _ _ _ _ _ h hq out st hc hd
  · rintro ⟨st, hc, hn⟩
    rcases convertStateLoop_spec hs h1.bound (s.length + 1) init s [] (by omega) with
      ⟨o, st', e, hc'⟩ | ⟨e, ⟨a, c, b, o, st1, rfl, h3, h4⟩ | ⟨o, st', hc', hq, hd⟩⟩
    · rw [convertState, e, (hc'.unique hc).1]
      rfl
    · obtain ⟨_, _, st2, _, h5, h6⟩ := hc.split a
      rw [← (h3.unique h5).2] at h6
      cases h6 with
      | cons hu _ => rw [h4] at hu; cases hu
    · rw [(hc'.unique hc).1] at hd
      exact absurd ⟨hq, hd h1⟩ hn

/-- Every failure is the one exception: a unit that cannot stand where it is, or a quiet end behind a full buffer. -/
theorem C115_failure {facet : StateFacet σ α β} (hs : Serves cs facet) (hp : Prompt cs facet) (h1 : AtMostOne cs) (init : σ) (s : List α) (f : Fail) :
    convertState facet init s = .error f ↔ f = .conversion ∧
      ((∃ a c b out st, s = a ++ c :: b ∧ Conveys cs init a out st ∧ cs.unit st c = none) ∨
       (∃ out st, Conveys cs init s out st ∧ QuietEnd cs init s ∧ 32 ∣ out.length)) := by
  rcases convertStateLoop_spec hs h1.bound (s.length + 1) init s [] (by omega) with ⟨o, st, e, hc⟩ | ⟨e, h⟩
  · rw [convertState, e]
    refine ⟨fun h => (by cases h), ?_⟩
    rintro ⟨_, ⟨a, c, b, o', st1, rfl, h3, h4⟩ | ⟨o', st', hc', hq, hd⟩⟩
    · obtain ⟨_, _, st2, _, h5, h6⟩ := hc.split a
      rw [← (h3.unique h5).2] at h6
      cases h6 with
      | cons hu _ => rw [h4] at hu; cases hu
    · exact absurd hd (convertStateLoop_prompt hs hp h1 _ _ _ _ _ e hq o' st' hc')
  · rw [convertState, e]
    refine ⟨?_, fun h => by rw [h.1]⟩
    intro h'
    cases h'
    refine ⟨rfl, ?_⟩
    rcases h with h | ⟨o, st, hc, hq, hd⟩
    · exact .inl h
    · exact .inr ⟨o, st, hc, hq, hd h1⟩

/-- For every facet, prompt or not: a text that is cut off is converted unless the characters before just fill the buffer; -/
theorem C115_cut_off {facet : StateFacet σ α β} (hs : Serves cs facet) (h1 : AtMostOne cs) (init : σ) (s : List α) (out : List β) (st : σ)
    (hc : Conveys cs init s out st) (h : ¬ 32 ∣ out.length) : convertState facet init s = .ok out := by
  rcases convertStateLoop_spec hs h1.bound (s.length + 1) init s [] (by omega) with
    ⟨o, st', e, hc'⟩ | ⟨e, ⟨a, c, b, o, st1, rfl, h3, h4⟩ | ⟨o, st', hc', hq, hd⟩⟩
  · rw [convertState, e, (hc'.unique hc).1]
    rfl
  · obtain ⟨_, _, st2, _, h5, h6⟩ := hc.split a
    rw [← (h3.unique h5).2] at h6
    cases h6 with
    | cons hu _ => rw [h4] at hu; cases hu
  · rw [(hc'.unique hc).1] at hd
    exact absurd (hd h1) h

/-- and a text of shift sequences only is refused. -/
theorem C115_only_shifts {facet : StateFacet σ α β} (hs : Serves cs facet) (hb : ∀ st c st' o, cs.unit st c = some (st', o) → o.length ≤ 32)
    (init : σ) (s : List α) (st : σ) (hn : s ≠ []) (hc : Conveys cs init s [] st) : convertState facet init s = .error .conversion := by
  rcases convertStateLoop_spec hs hb (s.length + 1) init s [] (by omega) with ⟨o, st', e, hc'⟩ | ⟨e, _⟩
  · exfalso
    obtain ⟨c, s, rfl⟩ := List.exists_cons_of_ne_nil hn
    rw [convertStateLoop] at e
    rcases hr : facet init (c :: s) bufferSize with ⟨status, st1, rest, out⟩
    obtain ⟨a, he, hd, -⟩ := hs _ _ _ _ _ _ _ hr
    rw [he] at hc
    obtain ⟨o1, o2, st2, e1, h1, -⟩ := hc.split a
    have : out = [] := by rw [(hd.unique h1).1]; exact (List.append_eq_nil_iff.1 e1.symm).1
    rw [hr, this] at e
    cases status <;> simp at e
  · exact e

/-! ### The facet that reads unit by unit -/

/-- It stops as soon as the target is full. -/
def unitFacet (cs : CharSet σ α β) : σ → List α → Nat → CvtStatus × σ × List α × List β
  | st, [], _ => (.ok, st, [], [])
  | st, c :: s, room =>
    if room = 0 then (.partial_, st, c :: s, [])
    else match cs.unit st c with
      | none => (.error, st, c :: s, [])
      | some (st', o) =>
        if room < o.length then (.partial_, st, c :: s, [])
        else
          let r := unitFacet cs st' s (room - o.length)
          (r.1, r.2.1, r.2.2.1, o ++ r.2.2.2)

theorem unitFacet_serves (cs : CharSet σ α β) : Serves cs (unitFacet cs) := by
  intro st s room status st' rest out h
  induction s generalizing st room status st' rest out with
  | nil =>
    rw [unitFacet] at h
    cases h
    exact ⟨[], rfl, .nil _, by simp, by simp, by simp, by simp⟩
  | cons c s ih =>
    rw [unitFacet] at h
    by_cases hr : room = 0
    · rw [if_pos hr] at h
      cases h
      exact ⟨[], rfl, .nil _, by simp, by simp, by simp, fun _ _ => .inl (by simp [hr])⟩
    rw [if_neg hr] at h
    cases hu : cs.unit st c with
    | none =>
      rw [hu] at h
      cases h
      exact ⟨[], rfl, .nil _, by simp, by simp, fun _ => ⟨c, s, rfl, hu⟩, by simp⟩
    | some r =>
      obtain ⟨st1, o⟩ := r
      rw [hu] at h
      dsimp only at h
      by_cases hl : room < o.length
      · rw [if_pos hl] at h
        cases h
        exact ⟨[], rfl, .nil _, by simp, by simp, by simp, fun _ _ => .inr ⟨c, s, st1, o, rfl, hu, by simpa using hl⟩⟩
      · rw [if_neg hl] at h
        rcases hr' : unitFacet cs st1 s (room - o.length) with ⟨status', st2, rest', out'⟩
        rw [hr'] at h
        dsimp only at h
        cases h
        obtain ⟨a, rfl, hd, h1, h2, h3, h4⟩ := ih _ _ _ _ _ _ hr'
        refine ⟨c :: a, rfl, .cons hu hd, by rw [List.length_append]; omega, h2, h3, ?_⟩
        intro hs hn
        rcases h4 hs hn with h | ⟨c', r, st3, o', e, hu', hlt⟩
        · exact .inl (by rw [List.length_append]; omega)
        · exact .inr ⟨c', r, st3, o', e, hu', by rw [List.length_append]; omega⟩

theorem unitFacet_prompt (cs : CharSet σ α β) : Prompt cs (unitFacet cs) := by
  intro st s room status st' rest out h
  induction s generalizing st room status st' rest out with
  | nil =>
    intro a b o st1 he hb _
    have := congrArg List.length he
    have := List.length_pos_iff.2 hb
    simp at *
    omega
  | cons c s ih =>
    intro a b o st1 he hb hd
    rw [unitFacet] at h
    have none_left : rest ≠ c :: s := by
      rintro rfl
      have := congrArg List.length he
      have := List.length_pos_iff.2 hb
      simp at *
      omega
    by_cases hr : room = 0
    · rw [if_pos hr] at h
      cases h
      exact absurd rfl none_left
    rw [if_neg hr] at h
    cases hu : cs.unit st c with
    | none =>
      rw [hu] at h
      cases h
      exact absurd rfl none_left
    | some r =>
      obtain ⟨st2, o2⟩ := r
      rw [hu] at h
      dsimp only at h
      by_cases hl : room < o2.length
      · rw [if_pos hl] at h
        cases h
        exact absurd rfl none_left
      · rw [if_neg hl] at h
        rcases hr' : unitFacet cs st2 s (room - o2.length) with ⟨status', st3, rest', out'⟩
        rw [hr'] at h
        dsimp only at h
        cases h
        cases hd with
        | nil => simp; omega
        | @cons _ _ _ c' a' o' out'' hu' t =>
          rw [List.cons_append, List.cons_append] at he
          obtain ⟨hcc, he2⟩ := List.cons.inj he
          rw [← hcc] at hu'
          rw [hu] at hu'
          cases hu'
          have := ih _ _ _ _ _ _ hr' a' b out'' st1 he2 hb t
          rw [List.length_append]
          omega

end

/-- The loop without a state is the loop with one that carries nothing. -/
theorem convert_stateless {α β : Type} (facet : Facet α β) (s : List α) :
    convertState (fun (_ : Unit) s room => ((facet s room).1, (), (facet s room).2.1, (facet s room).2.2)) () s = convert facet s := by
  have gen : ∀ fuel (s : List α) (res : List β),
      convertStateLoop (fun (_ : Unit) s room => ((facet s room).1, (), (facet s room).2.1, (facet s room).2.2)) fuel () s res =
        (match convertLoop facet bufferSize fuel s with
        | .error f => .error f
        | .ok out => .ok (res ++ out)) := by
    intro fuel
    induction fuel with
    | zero => intro s res; cases s <;> simp [convertStateLoop, convertLoop]
    | succ fuel ih =>
      intro s res
      cases s with
      | nil => simp [convertStateLoop, convertLoop]
      | cons c s =>
        rw [convertStateLoop, convertLoop.eq_3 _ _ _ _ (by simp)]
        rcases hf : facet (c :: s) bufferSize with ⟨st, rest, out⟩
        simp only
        cases st <;> simp only <;> (try rfl) <;>
        · by_cases ho : out = []
          · simp [ho]
          · simp only [if_neg ho, ih]
            cases convertLoop facet bufferSize fuel rest <;> simp
  rw [convertState, gen, convert]
  cases convertLoop facet bufferSize (s.length + 1) s <;> simp

/-! ### Examples -/

namespace Ex

/-- A character set with the shifts of ISO 2022 (octets 14 and 15) and characters of two octets, the first of which is above 127. The state is
whether we are shifted, and the first octet of the character that has begun. -/
def shifting : CharSet (Bool × Option Nat) Nat Nat where
  unit
    | (shifted, none), c =>
      if c = 14 then some ((true, none), [])
      else if c = 15 then some ((false, none), [])
      else if c > 127 then some ((shifted, some c), [])
      else some ((shifted, none), [if shifted then c + 0x1000 else c])
    | (shifted, some lead), c => if c < 64 then none else some ((shifted, none), [lead * 256 + c])
  whole st := st.2 = none

theorem shifting_atMostOne : AtMostOne shifting := by
  rintro ⟨shifted, lead⟩ c st' o h
  cases lead with
  | none =>
    simp only [shifting] at h
    split at h
    · cases h; simp
    split at h
    · cases h; simp
    split at h
    · cases h; simp
    · cases h; simp
  | some l =>
    simp only [shifting] at h
    split at h
    · cases h
    · cases h; simp

/-- `a`, a shifted `b`, and a character of two octets. -/
example : convertState (unitFacet shifting) (false, none) [97, 14, 98, 15, 200, 65] = .ok [97, 0x1062, 200 * 256 + 65] := by rfl

/-- Cut off in the middle of a character: dropped without a complaint, -/
example : convertState (unitFacet shifting) (false, none) [97, 200] = .ok [97] := by rfl

/-- but not behind 32 characters, or at the beginning. -/
example : convertState (unitFacet shifting) (false, none) (List.replicate 32 97 ++ [200]) = .error .conversion ∧
    convertState (unitFacet shifting) (false, none) [200] = .error .conversion := ⟨rfl, rfl⟩

/-- A text that goes back to the first state at its end, as it should: fine, -/
example : convertState (unitFacet shifting) (false, none) (14 :: List.replicate 31 97 ++ [15]) = .ok (List.replicate 31 0x1061) := by rfl

/-- unless it has 32 characters. -/
example : convertState (unitFacet shifting) (false, none) (14 :: List.replicate 32 97 ++ [15]) = .error .conversion := by rfl

end Ex

/-- **C115 does not hold**: a text that is cut off is converted, and a complete one is refused. -/
theorem C115_negation :
    ¬ (∀ (σ : Type) (cs : CharSet σ Nat Nat) (facet : StateFacet σ Nat Nat), Serves cs facet → Prompt cs facet → AtMostOne cs →
        ∀ init, cs.whole init → ∀ s out, convertState facet init s = .ok out → ∃ st, Conveys cs init s out st ∧ cs.whole st) ∧
    ¬ (∀ (σ : Type) (cs : CharSet σ Nat Nat) (facet : StateFacet σ Nat Nat), Serves cs facet → Prompt cs facet → AtMostOne cs →
        ∀ init, cs.whole init → ∀ s out st, Conveys cs init s out st → cs.whole st → convertState facet init s = .ok out) := by
  constructor
  · intro h
    obtain ⟨st, hc, hw⟩ := h _ Ex.shifting (unitFacet Ex.shifting) (unitFacet_serves _) (unitFacet_prompt _) Ex.shifting_atMostOne
      (false, none) rfl [97, 200] [97] rfl
    have : Conveys Ex.shifting (false, none) [97, 200] [97] (false, some 200) := .cons (o := [97]) rfl (.cons (o := []) rfl (.nil _))
    rw [(hc.unique this).2] at hw
    cases hw
  · intro h
    have := h _ Ex.shifting (unitFacet Ex.shifting) (unitFacet_serves _) (unitFacet_prompt _) Ex.shifting_atMostOne
      (false, none) rfl [15] [] (false, none) (.cons (o := []) rfl (.nil _)) rfl
    cases this

end PO
