import Verif.Spec.GrammarAll
import Verif.Lemmas.Refusal
/-
C61, C63, C21 for all option sets.
-/
namespace PO
open Spec
namespace Cmdline

/-! ### The assertions -/

theorem absorb_fail (lim : Option Nat) (o : Opt) (ps : List Opt) (p : Opt) (os : List Opt) (hp : ∀ q ∈ ps, Spec.Loose q ∧ OneEach q)
    (hm : ∀ n, lim = some n → ps.length < n) (hl : Spec.Loose p) (hs : ¬ OneEach p) :
    absorb lim o (ps ++ p :: os) = .error (.ub (if p.value.length = 1 then .originalNotSingle else .valueNotSingle)) := by
  induction ps generalizing lim o with
  | nil =>
    rw [List.nil_append, absorb, if_neg (by intro h; exact absurd (hm 0 h) (by simp)), if_neg (by simpa using hl.1), if_neg hl.2]
    by_cases hv : p.value.length = 1
    · rw [if_pos hv]
      have ht : ¬ p.originalTokens.length = 1 := fun h => hs ⟨hv, h⟩
      obtain ⟨v, hv⟩ := List.length_eq_one_iff.1 hv
      rw [hv]
      dsimp only
      split
      · rename_i t h; rw [h] at ht; simp at ht
      · rfl
    · rw [if_neg hv]
      split
      · rename_i v h; rw [h] at hv; simp at hv
      · rfl
  | cons q ps ih =>
    obtain ⟨⟨hk, hi⟩, hv, ht⟩ := hp q (by simp)
    rw [List.cons_append, absorb, if_neg (by intro h; exact absurd (hm 0 h) (by simp)), if_neg (by simpa using hk), if_neg hi]
    obtain ⟨v, hv⟩ := List.length_eq_one_iff.1 hv
    obtain ⟨t, ht⟩ := List.length_eq_one_iff.1 ht
    rw [hv, ht]
    dsimp only
    rw [ih _ _ (fun r hr => hp r (by simp [hr]))]
    intro n hn
    cases lim with
    | none => cases hn
    | some m =>
      have := hm m rfl
      simp only [Option.map_some, Option.some.injEq, List.length_cons] at hn this
      omega

theorem absorb_error (lim : Option Nat) (o : Opt) (os : List Opt) (f : Fail) (h : absorb lim o os = .error f) :
    ∃ ps p rest, os = ps ++ p :: rest ∧ (∀ q ∈ ps, Spec.Loose q ∧ OneEach q) ∧ (∀ n, lim = some n → ps.length < n) ∧ Spec.Loose p ∧ ¬ OneEach p ∧
      f = .ub (if p.value.length = 1 then .originalNotSingle else .valueNotSingle) := by
  induction os generalizing lim o with
  | nil => rw [absorb] at h; cases h
  | cons p os ih =>
    rw [absorb] at h
    by_cases h1 : lim = some 0
    · rw [if_pos h1] at h; cases h
    rw [if_neg h1] at h
    by_cases h2 : p.stringKey = []
    · rw [if_neg (by simpa using h2)] at h
      by_cases h3 : p.positionKey = intMax
      · rw [if_pos h3] at h; cases h
      · rw [if_neg h3] at h
        have hl : Spec.Loose p := ⟨h2, h3⟩
        have hpos : ∀ n, lim = some n → 0 < n := by
          intro n hn
          cases n with
          | zero => exact absurd hn h1
          | succ n => exact Nat.succ_pos _
        split at h
        · rename_i v hv
          split at h
          · rename_i t ht
            split at h
            · rename_i f' hr
              cases h
              obtain ⟨ps, q, rest, rfl, hps, hm, hq⟩ := ih _ _ hr
              refine ⟨p :: ps, q, rest, rfl, ?_, ?_, hq⟩
              · intro r hr
                rcases List.mem_cons.1 hr with rfl | hr
                · exact ⟨hl, by rw [OneEach, hv, ht]; exact ⟨rfl, rfl⟩⟩
                · exact hps r hr
              · intro n hn
                have := hm (n - 1) (by rw [hn]; rfl)
                simp only [List.length_cons]
                omega
            · cases h
          · rename_i ht
            cases h
            refine ⟨[], p, os, rfl, by simp, by simpa using hpos, hl, ?_, ?_⟩
            · rintro ⟨_, h⟩
              obtain ⟨t, h⟩ := List.length_eq_one_iff.1 h
              exact ht t h
            · rw [hv]; rfl
        · rename_i hv
          cases h
          have : ¬ p.value.length = 1 := by
            intro h
            obtain ⟨t, h⟩ := List.length_eq_one_iff.1 h
            exact hv t h
          refine ⟨[], p, os, rfl, by simp, by simpa using hpos, hl, fun h => this h.1, ?_⟩
          rw [if_neg this]
    · rw [if_pos (by simpa using h2)] at h; cases h

/-! ### How many there can be -/

theorem group_length {c : Cmdline} {tok t : Str} {items : List Item} (h : Group c tok t items) : items.length ≤ t.length := by
  induction h with
  | last => simp
  | value => simp
  | switch _ _ _ _ _ _ ih => simpa using ih

theorem spells_length {c : Cmdline} {tok : Str} {items : List Item} (h : Spells c tok items) : items.length ≤ tok.length + 1 := by
  cases h with
  | short a t items _ _ ht _ _ hg =>
    have := group_length hg
    subst ht
    simp only [List.length_cons] at this ⊢
    omega
  | _ => simp

theorem reads_bound {c : Cmdline} {args : List Str} {os : List Opt} (h : Reads c args os) : (unnamed os).length ≤ textLength args := by
  refine Nat.le_trans (List.length_filter_le _ _) ?_
  induction h with
  | nil => simp
  | plain _ _ _ ih => simp only [textLength, List.map_cons, List.sum_cons, List.length_cons] at ih ⊢; omega
  | @terminator rest _ =>
    have : rest.length ≤ (rest.map (·.length + 1)).sum := by
      induction rest with
      | nil => simp
      | cons a l ih => simp only [List.map_cons, List.sum_cons, List.length_cons] at ih ⊢; omega
    simp only [textLength, List.map_cons, List.sum_cons, List.length_map]
    omega
  | @option tok items taken os rest more hsp hc _ ih =>
    have h1 := spells_length hsp
    rw [← completesAll_length hc] at h1
    simp only [textLength, List.cons_append, List.map_cons, List.sum_cons, List.map_append, List.sum_append, List.length_append] at ih ⊢
    omega

theorem gathersAll_regroup {c : Cmdline} {os os' : List Opt} (h : GathersAll c os os') (hlen : (unnamed os).length < 2147483648) :
    c.regroup 0 os = .ok os' := by
  induction h with
  | nil => rw [regroup]
  | @positional o os os' h t ih =>
    rw [regroup]
    dsimp only
    rw [if_pos h, ih (by rw [unnamed_cons_nil h] at hlen; simp at hlen; omega)]
  | @keep o os os' h hr t ih =>
    rw [regroup]
    dsimp only
    have ih := ih (by rw [unnamed_cons_ne h] at hlen; exact hlen)
    rw [if_neg h]
    rcases hr with hr | ⟨d, hd, hr⟩
    · rw [lookup_unknown.2 hr]
      dsimp only
      rw [ih]
    · rw [lookup_denotes.2 hd]
      dsimp only
      rw [if_neg (show ¬ (d.semantic.minTokens < d.semantic.maxTokens ∧ o.value.length < d.semantic.maxTokens) from hr), ih]
  | @take o ps os os' d h hd hr hp hmax t ih =>
    rw [regroup]
    dsimp only
    rw [unnamed_cons_ne h, unnamed_length_append _ _ (fun p hpp => (hp p hpp).1.1)] at hlen
    have ih := ih (by omega)
    rw [if_neg h, lookup_denotes.2 hd]
    dsimp only
    rw [if_pos (show d.semantic.minTokens < d.semantic.maxTokens ∧ o.value.length < d.semantic.maxTokens from hr), absorb_take _ o ps os]
    · dsimp only
      rw [regroup_drop, List.drop_left, ih]
      rfl
    · intro p hpp
      exact ⟨(hp p hpp).1.1, (hp p hpp).1.2, (hp p hpp).2⟩
    · unfold takeLimit
      rcases hmax with hm | ⟨hm, hq⟩
      · left
        rw [if_pos (by omega)]
        congr 1
        omega
      · right
        refine ⟨fun n hn => ?_, hq⟩
        split at hn
        · cases hn; omega
        · cases hn


theorem regroup_gathersAll (c : Cmdline) (os os' : List Opt) (hlen : (unnamed os).length < 2147483648) (h : c.regroup 0 os = .ok os') :
    GathersAll c os os' := by
  suffices hs : ∀ n os os', os.length ≤ n → (unnamed os).length < 2147483648 → c.regroup 0 os = .ok os' → GathersAll c os os' from
    hs _ _ _ (Nat.le_refl _) hlen h
  clear h hlen os os'
  intro n
  induction n with
  | zero =>
    intro os os' hl _ h
    cases os with
    | nil => rw [regroup] at h; cases h; exact .nil
    | cons o os => simp at hl
  | succ n ih =>
    intro os os' hl hlen h
    cases os with
    | nil => rw [regroup] at h; cases h; exact .nil
    | cons o os =>
      simp only [List.length_cons] at hl
      rw [regroup] at h
      dsimp only at h
      by_cases hk : o.stringKey = []
      · rw [if_pos hk] at h
        rw [unnamed_cons_nil hk] at hlen
        split at h
        · cases h
        · rename_i hr; cases h
          exact .positional hk (ih _ _ (by omega) (by simp at hlen; omega) hr)
      · rw [if_neg hk] at h
        rw [unnamed_cons_ne hk] at hlen
        split at h
        · split at h <;> cases h
        · cases h
        · rename_i hu
          split at h
          · cases h
          · rename_i hr; cases h
            exact .keep hk (.inl (lookup_unknown.1 hu)) (ih _ _ (by omega) hlen hr)
        · rename_i d hd
          have hd := lookup_denotes.1 hd
          by_cases hm : d.semantic.minTokens < d.semantic.maxTokens ∧ o.value.length < d.semantic.maxTokens
          · rw [if_pos hm] at h
            split at h
            · cases h
            · rename_i o' k ha
              obtain ⟨h1, h2, h3, h4, h5⟩ := absorb_spec _ _ _ _ _ ha
              rw [regroup_drop] at h
              have hcount : (unnamed os).length = k + (unnamed (os.drop k)).length := by
                have := unnamed_length_append (os.take k) (os.drop k) (fun p hp => (h3 p hp).1)
                rw [List.take_append_drop, List.length_take, Nat.min_eq_left h1] at this
                exact this
              split at h
              · cases h
              · rename_i os1 hr
                cases h
                have := ih (os.drop k) os1 (by simp; omega) (by omega) hr
                rw [h2]
                have hgoal := GathersAll.take (ps := os.take k) d hk hd hm (fun p hp => ⟨⟨(h3 p hp).1, (h3 p hp).2.1⟩, (h3 p hp).2.2⟩) ?_ this
                · rw [List.take_append_drop] at hgoal
                  exact hgoal
                · have hlk : (os.take k).length = k := by simp; omega
                  rw [hlk]
                  unfold takeLimit at h4 h5
                  split at h4
                  · rename_i hlt
                    have h4 := h4 _ rfl
                    rw [if_pos hlt] at h5
                    by_cases he : k = d.semantic.maxTokens - o.value.length
                    · left; omega
                    · right
                      refine ⟨by omega, fun p hp hloose => ?_⟩
                      have := h5 p hp hloose.1 hloose.2
                      cases this
                      exact he rfl
                  · rename_i hlt
                    rw [if_neg hlt] at h5
                    right
                    refine ⟨by omega, fun p hp hloose => ?_⟩
                    have := h5 p hp hloose.1 hloose.2
                    cases this
          · rw [if_neg hm] at h
            split at h
            · cases h
            · rename_i hr; cases h
              exact .keep hk (.inr ⟨d, hd, hm⟩) (ih _ _ (by omega) hlen hr)


theorem clashesAll_regroup {c : Cmdline} {os : List Opt} {f : Fail} (h : ClashesAll c os f) (hlen : (unnamed os).length < 2147483648) :
    c.regroup 0 os = .error f := by
  induction h with
  | here t ts h ha ht =>
    rw [regroup]
    dsimp only
    rw [if_neg h, (c.lookup_ambiguous _ _).2 ⟨_, ha, rfl⟩, ht]
    rfl
  | undefined h ha ht =>
    rw [regroup]
    dsimp only
    rw [if_neg h, (c.lookup_ambiguous _ _).2 ⟨_, ha, rfl⟩, ht]
    rfl
  | @positional o os f h t ih =>
    rw [regroup]
    dsimp only
    rw [if_pos h, ih (by rw [unnamed_cons_nil h] at hlen; simp at hlen; omega)]
  | @keep o os f h hr t ih =>
    rw [regroup]
    dsimp only
    have ih := ih (by rw [unnamed_cons_ne h] at hlen; exact hlen)
    rw [if_neg h]
    rcases hr with hr | ⟨d, hd, hr⟩
    · rw [lookup_unknown.2 hr]
      dsimp only
      rw [ih]
    · rw [lookup_denotes.2 hd]
      dsimp only
      rw [if_neg (show ¬ (d.semantic.minTokens < d.semantic.maxTokens ∧ o.value.length < d.semantic.maxTokens) from hr), ih]
  | @assertion o ps p os d h hd hr hp hroom hl hs =>
    rw [regroup]
    dsimp only
    rw [if_neg h, lookup_denotes.2 hd]
    dsimp only
    rw [if_pos (show d.semantic.minTokens < d.semantic.maxTokens ∧ o.value.length < d.semantic.maxTokens from hr), absorb_fail _ o ps p os hp _ hl hs]
    intro n hn
    unfold takeLimit at hn
    split at hn
    · cases hn; omega
    · cases hn
  | @take o ps os f d h hd hr hp hmax t ih =>
    rw [regroup]
    dsimp only
    rw [unnamed_cons_ne h, unnamed_length_append _ _ (fun p hpp => (hp p hpp).1.1)] at hlen
    have ih := ih (by omega)
    rw [if_neg h, lookup_denotes.2 hd]
    dsimp only
    rw [if_pos (show d.semantic.minTokens < d.semantic.maxTokens ∧ o.value.length < d.semantic.maxTokens from hr), absorb_take _ o ps os]
    · dsimp only
      rw [regroup_drop, List.drop_left, ih]
    · intro p hpp
      exact ⟨(hp p hpp).1.1, (hp p hpp).1.2, (hp p hpp).2⟩
    · unfold takeLimit
      rcases hmax with hm | ⟨hm, hq⟩
      · left
        rw [if_pos (by omega)]
        congr 1
        omega
      · right
        refine ⟨fun n hn => ?_, hq⟩
        split at hn
        · cases hn; omega
        · cases hn


theorem regroup_clashesAll (c : Cmdline) (os : List Opt) (f : Fail) (hlen : (unnamed os).length < 2147483648)
    (h : c.regroup 0 os = .error f) : ClashesAll c os f := by
  suffices hgen : ∀ n os, os.length ≤ n → (unnamed os).length < 2147483648 → c.regroup 0 os = .error f → ClashesAll c os f from
    hgen _ _ (Nat.le_refl _) hlen h
  clear h hlen os
  intro n
  induction n with
  | zero =>
    intro os hl _ h
    cases os with
    | nil => rw [regroup] at h; cases h
    | cons o os => simp at hl
  | succ n ih =>
    intro os hl hlen h
    cases os with
    | nil => rw [regroup] at h; cases h
    | cons o os =>
      simp only [List.length_cons] at hl
      rw [regroup] at h
      dsimp only at h
      by_cases hk : o.stringKey = []
      · rw [if_pos hk] at h
        rw [unnamed_cons_nil hk] at hlen
        cases hr : c.regroup 0 os with
        | ok os' => rw [hr] at h; cases h
        | error f' =>
          rw [hr] at h; cases h
          exact .positional hk (ih _ (by omega) (by simp at hlen; omega) hr)
      · rw [if_neg hk] at h
        rw [unnamed_cons_ne hk] at hlen
        cases hlk : c.lookup o.stringKey with
        | error f' =>
          obtain ⟨alts, ha, rfl⟩ := (c.lookup_ambiguous _ _).1 hlk
          rw [hlk] at h
          change (match o.originalTokens with
            | [] => (Except.error (Fail.ub .emptyOriginalTokens) : Except Fail (List Opt))
            | t :: _ => Except.error (complaint c (.ambiguousOption alts) o.stringKey t)) = _ at h
          cases ht : o.originalTokens with
          | nil => rw [ht] at h; cases h; exact .undefined hk ha ht
          | cons t ts => rw [ht] at h; cases h; exact .here t ts hk ha ht
        | ok d =>
          rw [hlk] at h
          cases d with
          | none =>
            dsimp only at h
            cases hr : c.regroup 0 os with
            | ok os' => rw [hr] at h; cases h
            | error f' =>
              rw [hr] at h; cases h
              exact .keep hk (.inl (lookup_unknown.1 hlk)) (ih _ (by omega) hlen hr)
          | some d =>
            dsimp only at h
            have hd := lookup_denotes.1 hlk
            by_cases hm : d.semantic.minTokens < d.semantic.maxTokens ∧ o.value.length < d.semantic.maxTokens
            · rw [if_pos hm] at h
              cases ha : absorb (takeLimit d.semantic.maxTokens o.value.length) o os with
              | error f' =>
                rw [ha] at h
                cases h
                obtain ⟨ps, p, rest, rfl, hps, hlim, hl', hs, rfl⟩ := absorb_error _ _ _ _ ha
                refine .assertion d hk hd hm hps ?_ hl' hs
                rw [unnamed_length_append _ _ (fun q hq => (hps q hq).1.1)] at hlen
                unfold takeLimit at hlim
                split at hlim
                · have := hlim _ rfl; omega
                · omega
              | ok r =>
              obtain ⟨o', k⟩ := r
              rw [ha] at h
              dsimp only at h
              obtain ⟨h1, h2, h3, h4, h5⟩ := absorb_spec _ _ _ _ _ ha
              rw [regroup_drop] at h
              have hcount : (unnamed os).length = k + (unnamed (os.drop k)).length := by
                have := unnamed_length_append (os.take k) (os.drop k) (fun p hp => (h3 p hp).1)
                rw [List.take_append_drop, List.length_take, Nat.min_eq_left h1] at this
                exact this
              cases hr : c.regroup 0 (os.drop k) with
              | ok os' => rw [hr] at h; cases h
              | error f' =>
                rw [hr] at h; cases h
                have := ih (os.drop k) (by simp; omega) (by omega) hr
                have hgoal := ClashesAll.take (ps := os.take k) d hk hd hm (fun p hp => ⟨⟨(h3 p hp).1, (h3 p hp).2.1⟩, (h3 p hp).2.2⟩) ?_ this
                · rw [List.take_append_drop] at hgoal
                  exact hgoal
                · have hlk : (os.take k).length = k := by simp; omega
                  rw [hlk]
                  unfold takeLimit at h4 h5
                  split at h4
                  · rename_i hlt
                    have h4 := h4 _ rfl
                    rw [if_pos hlt] at h5
                    by_cases he : k = d.semantic.maxTokens - o.value.length
                    · left; omega
                    · right
                      refine ⟨by omega, fun p hp hloose => ?_⟩
                      have := h5 p hp hloose.1 hloose.2
                      cases this
                      exact he rfl
                  · rename_i hlt
                    rw [if_neg hlt] at h5
                    right
                    refine ⟨by omega, fun p hp hloose => ?_⟩
                    have := h5 p hp hloose.1 hloose.2
                    cases this
            · rw [if_neg hm] at h
              cases hr : c.regroup 0 os with
              | ok os' => rw [hr] at h; cases h
              | error f' =>
                rw [hr] at h; cases h
                exact .keep hk (.inr ⟨d, hd, hm⟩) (ih _ (by omega) hlen hr)


/-- A parse succeeds with a result exactly if the grammar derives it. -/
theorem run_grammarAll (c : Cmdline) (hs : c.styleParser = none) (args : List Str) (hlen : textLength args < 2147483648)
    (res : List Opt) : c.run args = .ok res ↔ ∃ os os', Reads c args os ∧ GathersAll c os os' ∧ Labels c 0 os' res := by
  rw [c.run_pass hs]
  simp only [c.pass_reads hs]
  have key : ∀ os os', Reads c args os → c.regroup 0 os = .ok os' → (c.finalize os = .ok res ↔ Labels c 0 os' res) := by
    intro os os' hr hrg
    have hp := (c.pass_reads hs args os).2 hr
    have hw : ∀ o ∈ os', o.stringKey ≠ [] → o.positionKey = -1 := by
      intro o ho hk
      obtain ⟨o1, ho1, ps, _, rfl, _⟩ := (c.regroup_regrouped _ _ hrg).mem o ho
      exact (hp.made o1 ho1).position hk
    rw [c.finalize_eq _ _ hrg hw]
    cases hpos : c.positional with
    | none =>
      rw [labels_none c hpos]
      constructor
      · intro h; cases h; rfl
      · rintro rfl; rfl
    | some p =>
      dsimp only
      rw [labels_some c p hpos]
      have htm : tooMany p (unnamed os').length = true ↔ ¬ (unnamed os' = [] ∨ p.full (0 + (unnamed os').length - 1) = false) := by
        rw [tooMany_iff]
        simp
      by_cases ht : tooMany p (unnamed os').length = true
      · rw [if_pos ht]
        exact ⟨nofun, fun h => absurd h.1 (htm.1 ht)⟩
      · rw [if_neg ht]
        constructor
        · intro h; cases h
          exact ⟨Decidable.byContradiction fun h => ht (htm.2 h), rfl⟩
        · rintro ⟨_, rfl⟩; rfl
  constructor
  · rintro ⟨os, hr, hf⟩
    obtain ⟨os', hrg⟩ := c.finalize_regroup _ _ hf
    have := reads_bound hr
    exact ⟨os, os', hr, c.regroup_gathersAll _ _ (by omega) hrg, (key os os' hr hrg).1 hf⟩
  · rintro ⟨os, os', hr, hg, hl⟩
    have := reads_bound hr
    exact ⟨os, hr, (key os os' hr (gathersAll_regroup hg (by omega))).2 hl⟩


/-- A parse fails with an exception exactly if the rules give it. -/
theorem run_refusedAll (c : Cmdline) (hs : c.styleParser = none) (args : List Str) (hlen : textLength args < 2147483648)
    (f : Fail) : c.run args = .error f ↔ RefusedAll c args f := by
  unfold run runFuel
  have key : ∀ os os', Reads c args os → c.regroup 0 os = .ok os' → (c.finalize os = .error f ↔
      ∃ p, c.positional = some p ∧ p.trailing = [] ∧ p.names.length < (unnamed os').length ∧ f = .tooManyPositional) := by
    intro os os' hr hrg
    have hp := (c.pass_reads hs args os).2 hr
    have hw : ∀ o ∈ os', o.stringKey ≠ [] → o.positionKey = -1 := by
      intro o ho hk
      obtain ⟨o1, ho1, ps, _, rfl, _⟩ := (c.regroup_regrouped _ _ hrg).mem o ho
      exact (hp.made o1 ho1).position hk
    rw [c.finalize_eq _ _ hrg hw]
    cases hpos : c.positional with
    | none => simp
    | some p =>
      dsimp only
      by_cases ht : tooMany p (unnamed os').length = true
      · rw [if_pos ht]
        have := (tooMany_trailing p _).1 ht
        simp [this, eq_comm]
      · rw [if_neg ht]
        refine ⟨nofun, ?_⟩
        rintro ⟨p', e, h1, h2, _⟩
        cases e
        exact absurd ((tooMany_trailing p _).2 ⟨h1, h2⟩) ht
  constructor
  · intro h
    cases hl : c.loop (args.length + 1) args with
    | error f' =>
      rw [hl] at h; cases h
      obtain ⟨cls, n, t, hb, rfl⟩ := c.loop_breaks hs _ _ _ (by omega) hl
      exact .reading hb
    | ok os =>
      rw [hl] at h
      dsimp only at h
      have hr := (c.pass_reads hs args os).1 (c.loop_pass hs _ _ _ hl)
      have hsing := reads_bound hr
      cases hrg : c.regroup 0 os with
      | error f' =>
        rw [finalize, hrg] at h; cases h
        exact .gathering hr (c.regroup_clashesAll os _ (by omega) hrg)
      | ok os' =>
        obtain ⟨p, h1, h2, h3, rfl⟩ := (key os os' hr hrg).1 h
        exact .labelling p hr (c.regroup_gathersAll _ _ (by omega) hrg) h1 h2 h3
  · intro h
    cases h with
    | reading h => rw [c.breaks_loop hs _ _ _ _ h _ (by omega)]
    | gathering h hc =>
      have hsing := reads_bound h
      rw [c.pass_loop hs _ _ ((c.pass_reads hs _ _).2 h) _ (by omega)]
      dsimp only
      rw [finalize, clashesAll_regroup hc (by omega)]
    | labelling p h hg hp ht hn =>
      have hsing := reads_bound h
      rw [c.pass_loop hs _ _ ((c.pass_reads hs _ _).2 h) _ (by omega)]
      exact (key _ _ h (gathersAll_regroup hg (by omega))).2 ⟨p, hp, ht, hn, rfl⟩


end Cmdline
end PO
