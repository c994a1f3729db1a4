import Verif.Spec.StyleGrammar
import Verif.Lemmas.StyleParser
import Verif.Lemmas.GrammarAll
/-
C142: the grammar of command lines, with a style parser of the program.
-/
namespace PO
open Spec
namespace Cmdline

/-! ### Single tokens -/

theorem lookahead_own (c : Cmdline) (p : StyleParser) (hs : c.styleParser = some p) (v : Str) (l : List Opt) (r : List Str) (h : p [v] = .ok (l, r))
    (hl : l ≠ []) : lookahead c.parsers [v] = .ok l := by
  rw [c.parsers_own p hs, lookahead, h]
  dsimp only
  rw [if_neg hl]

theorem lookahead_idle (c : Cmdline) (p : StyleParser) (hs : c.styleParser = some p) (v : Str) (h : p [v] = .ok ([], [v])) :
    lookahead c.parsers [v] = c.front v := by
  rw [c.parsers_own p hs, lookahead, h]
  dsimp only
  rw [if_pos rfl, lookahead_terminator _ (c.tokParsers_tok)]
  rfl

theorem lookahead_throws (c : Cmdline) (p : StyleParser) (hs : c.styleParser = some p) (v : Str) (f : Fail) (h : p [v] = .error f) :
    lookahead c.parsers [v] = .error f := by
  rw [c.parsers_own p hs, lookahead, h]

theorem spells_front {c : Cmdline} {v : Str} : (∃ items, Spells c v items) ↔ ∃ o os, c.front v = .ok (o :: os) := by
  constructor
  · rintro ⟨items, h⟩
    cases items with
    | nil => exact absurd rfl (spells_ne h)
    | cons i is => exact ⟨_, _, (c.front_iff v _).2 (.inr ⟨i :: is, h, rfl⟩)⟩
  · rintro ⟨o, os, h⟩
    obtain ⟨items, h, _⟩ := (c.front_spells v _ (by simp)).1 h
    exact ⟨items, h⟩

/-- What the lookahead does, in the three cases. -/
theorem lookahead_cases (c : Cmdline) (p : StyleParser) (hs : c.styleParser = some p) (ho : Orderly p) (v : Str) :
    (lookahead c.parsers [v] = .ok [] ↔ PlainBy c p v) ∧ ((∃ o os, lookahead c.parsers [v] = .ok (o :: os)) ↔ LooksBy c p v) ∧
    ∀ f, lookahead c.parsers [v] = .error f ↔ RefusedToken c p v f := by
  cases hp : p [v] with
  | error f =>
    rw [c.lookahead_throws p hs v f hp]
    refine ⟨⟨nofun, fun h => ?_⟩, ⟨(fun ⟨_, _, h⟩ => nomatch h), fun h => ?_⟩, fun f' => ⟨fun h => ?_, fun h => ?_⟩⟩
    · rw [PlainBy, hp] at h; cases h.1
    · rcases h with ⟨_, _, _, h⟩ | ⟨h, _⟩ <;> · rw [hp] at h; cases h
    · cases h; exact .own hp
    · cases h with
      | own h => rw [hp] at h; cases h; rfl
      | malformed h => rw [hp] at h; cases h
  | ok r =>
    obtain ⟨l, r⟩ := r
    cases l with
    | nil =>
      cases ho.idle _ _ hp
      rw [c.lookahead_idle p hs v hp]
      refine ⟨?_, ?_, fun f => ?_⟩
      · rw [c.front_plain, PlainBy]
        exact ⟨fun h => ⟨hp, h⟩, fun h => h.2⟩
      · rw [← spells_front, LooksBy]
        refine ⟨fun h => .inr ⟨hp, h⟩, fun h => ?_⟩
        rcases h with ⟨_, _, _, h⟩ | ⟨_, h⟩
        · rw [hp] at h; cases h
        · exact h
      · rw [c.front_malformed]
        constructor
        · rintro ⟨cls, n, t, h, rfl⟩
          exact .malformed hp h
        · intro h
          cases h with
          | own h => rw [hp] at h; cases h
          | malformed _ h => exact ⟨_, _, _, h, rfl⟩
    | cons o os =>
      rw [c.lookahead_own p hs v _ _ hp (by simp)]
      refine ⟨⟨nofun, fun h => ?_⟩, ⟨fun _ => .inl ⟨_, _, _, hp⟩, fun _ => ⟨_, _, rfl⟩⟩, fun f => ⟨nofun, fun h => ?_⟩⟩
      · have := h.1
        rw [hp] at this; cases this
      · cases h with
        | own h => rw [hp] at h; cases h
        | malformed h => rw [hp] at h; cases h

/-! ### Completing an option -/

section
variable (c : Cmdline) (p : StyleParser) (hs : c.styleParser = some p) (ho : Orderly p)
include hs ho

theorem takeableBy_iff (v : Str) :
    TakeableBy c p v ↔ lookahead c.parsers [v] = .ok [] ∨ (∃ o os, lookahead c.parsers [v] = .ok (o :: os)) ∧ c.lookup v = .ok none := by
  obtain ⟨h1, h2, _⟩ := c.lookahead_cases p hs ho v
  rw [TakeableBy, h1, h2, ← lookup_unknown]

theorem grabBy_iff (n : Nat) (other : List Str) (opt : Opt) (orig : Str) (hn : n ≤ other.length)
    (o' : Opt) (rest : List Str) :
    c.grab c.parsers n other opt orig = .ok (o', rest) ↔
      ∃ taken, other = taken ++ rest ∧ taken.length = n ∧ (∀ v ∈ taken, TakeableBy c p v) ∧
        o' = { opt with value := opt.value ++ taken, originalTokens := opt.originalTokens ++ taken } := by
  induction n generalizing other opt orig with
  | zero =>
    rw [grab]
    constructor
    · intro h; cases h
      exact ⟨[], rfl, rfl, by simp, by simp⟩
    · rintro ⟨taken, rfl, h, _, rfl⟩
      rw [List.length_eq_zero_iff.1 h]
      simp
  | succ n ih =>
    cases other with
    | nil => simp at hn
    | cons t ts =>
      have hn' : n ≤ ts.length := by simpa using hn
      have key : ∀ orig', TakeableBy c p t → (c.grab c.parsers n ts { opt with value := opt.value ++ [t], originalTokens := opt.originalTokens ++ [t] } orig' = .ok (o', rest) ↔
          ∃ taken, t :: ts = taken ++ rest ∧ taken.length = n + 1 ∧ (∀ v ∈ taken, TakeableBy c p v) ∧
            o' = { opt with value := opt.value ++ taken, originalTokens := opt.originalTokens ++ taken }) := by
        intro orig' htk
        rw [ih ts _ orig' hn']
        constructor
        · rintro ⟨taken, rfl, hl, ht, rfl⟩
          refine ⟨t :: taken, rfl, by simp [hl], ?_, by simp⟩
          intro v hv
          rcases List.mem_cons.1 hv with rfl | hv
          · exact htk
          · exact ht v hv
        · rintro ⟨taken, e, hl, ht, rfl⟩
          cases taken with
          | nil => simp at hl
          | cons x taken =>
            simp only [List.cons_append, List.cons.injEq] at e
            obtain ⟨rfl, rfl⟩ := e
            exact ⟨taken, rfl, by simpa using hl, fun v hv => ht v (by simp [hv]), by simp⟩
      have hno : ¬ TakeableBy c p t → ¬ ∃ taken, t :: ts = taken ++ rest ∧ taken.length = n + 1 ∧ (∀ v ∈ taken, TakeableBy c p v) ∧
            o' = { opt with value := opt.value ++ taken, originalTokens := opt.originalTokens ++ taken } := by
        rintro h ⟨taken, e, hl, ht, _⟩
        cases taken with
        | nil => simp at hl
        | cons x taken =>
          simp only [List.cons_append, List.cons.injEq] at e
          exact h (e.1 ▸ ht x (by simp))
      have htk := c.takeableBy_iff p hs ho t
      rw [grab]
      cases hf : lookahead c.parsers [t] with
      | error f =>
        refine ⟨nofun, fun h => absurd h (hno ?_)⟩
        rw [htk, hf]; simp
      | ok l =>
        cases l with
        | nil => exact key _ (htk.2 (.inl hf))
        | cons o os =>
          simp only
          cases hl : c.lookup t with
          | error f =>
            refine ⟨nofun, fun h => absurd h (hno ?_)⟩
            rw [htk, hf, hl]; simp
          | ok d =>
            cases d with
            | none => exact key _ (htk.2 (.inr ⟨⟨o, os, hf⟩, hl⟩))
            | some d =>
              refine ⟨nofun, fun h => absurd h (hno ?_)⟩
              rw [htk, hf, hl]; simp

theorem finishOptionBy_iff (o : Opt) (other : List Str) (o' : Opt) (rest : List Str) :
    c.finishOption c.parsers o other = .ok (o', rest) ↔ ∃ taken, other = taken ++ rest ∧ CompletesBy c p o taken o' := by
  unfold finishOption
  by_cases h0 : o.stringKey = []
  · rw [if_pos h0]
    constructor
    · intro h; cases h
      exact ⟨[], rfl, .nameless h0⟩
    · rintro ⟨taken, rfl, hc⟩
      cases hc with
      | nameless h => rfl
      | unknown h => exact absurd h0 h
      | known _ _ h => exact absurd h0 h
  · rw [if_neg h0]
    dsimp only
    cases hl : c.lookup o.stringKey with
    | error f =>
      refine ⟨nofun, ?_⟩
      rintro ⟨taken, rfl, hc⟩
      cases hc with
      | nameless h => exact absurd h h0
      | unknown h hn => rw [lookup_unknown.2 hn] at hl; cases hl
      | known d _ h hd => rw [lookup_denotes.2 hd] at hl; cases hl
    | ok d =>
      cases d with
      | none =>
        dsimp only
        have hn := lookup_unknown.1 hl
        by_cases hu : c.allowUnregistered = true
        · rw [if_pos hu]
          constructor
          · intro h; cases h
            exact ⟨[], rfl, .unknown h0 hn hu⟩
          · rintro ⟨taken, rfl, hc⟩
            cases hc with
            | nameless h => exact absurd h h0
            | unknown h => rfl
            | known d _ h hd => rw [lookup_denotes.2 hd] at hl; cases hl
        · rw [if_neg hu]
          refine ⟨nofun, ?_⟩
          rintro ⟨taken, rfl, hc⟩
          cases hc with
          | nameless h => exact absurd h h0
          | unknown _ _ h => exact absurd h hu
          | known d _ h hd => rw [lookup_denotes.2 hd] at hl; cases hl
      | some d =>
        dsimp only
        have hd := lookup_denotes.1 hl
        have hback : ∀ taken, CompletesBy c p o taken o' → taken.length = d.semantic.minTokens - o.value.length ∧ (∀ v ∈ taken, TakeableBy c p v) ∧
            (d.semantic.maxTokens = 0 → o.value = []) ∧
            o' = { o with stringKey := reportedKey d o.stringKey, value := o.value ++ taken, originalTokens := o.originalTokens ++ taken } := by
          intro taken hc
          cases hc with
          | nameless h => exact absurd h h0
          | unknown h hn => rw [lookup_unknown.2 hn] at hl; cases hl
          | known d' _ h hd' hlen ht hsw =>
            rw [lookup_denotes.2 hd'] at hl
            cases hl
            exact ⟨hlen, ht, hsw, rfl⟩
        by_cases hm : o.value.length + other.length ≥ d.semantic.minTokens
        · rw [if_pos hm]
          by_cases hx : o.value ≠ [] ∧ d.semantic.maxTokens = 0
          · rw [if_pos hx]
            refine ⟨nofun, ?_⟩
            rintro ⟨taken, rfl, hc⟩
            exact absurd ((hback taken hc).2.2.1 hx.2) hx.1
          · rw [if_neg hx, c.grabBy_iff p hs ho _ _ _ _ (by omega), key_eq]
            constructor
            · rintro ⟨taken, rfl, hlen, ht, rfl⟩
              refine ⟨taken, rfl, .known d taken h0 hd hlen ht ?_⟩
              intro h
              exact Decidable.byContradiction fun hne => hx ⟨hne, h⟩
            · rintro ⟨taken, rfl, hc⟩
              obtain ⟨h1, h2, _, h4⟩ := hback taken hc
              exact ⟨taken, rfl, h1, h2, h4⟩
        · rw [if_neg hm]
          refine ⟨nofun, ?_⟩
          rintro ⟨taken, rfl, hc⟩
          have := (hback taken hc).1
          simp only [List.length_append] at hm
          omega

theorem finishAllBy_iff (l : List Opt) (h0 : l ≠ []) (args : List Str) (os : List Opt) (rest : List Str) :
    c.finishAll c.parsers l args = .ok (os, rest) ↔ ∃ taken, args = taken ++ rest ∧ CompletesAllBy c p l taken os := by
  induction l generalizing os with
  | nil => exact absurd rfl h0
  | cons i is ih =>
    cases is with
    | nil =>
      rw [finishAll]
      have key := fun o' rest => c.finishOptionBy_iff p hs ho i args o' rest
      constructor
      · intro h
        cases hf : c.finishOption c.parsers i args with
        | error f => rw [hf] at h; cases h
        | ok r =>
          obtain ⟨o, a⟩ := r
          rw [hf] at h; cases h
          obtain ⟨taken, e, hc⟩ := (key _ _).1 hf
          exact ⟨taken, e, .one hc⟩
      · rintro ⟨taken, e, hc⟩
        cases hc with
        | one h => rw [(key _ _).2 ⟨taken, e, h⟩]
        | cons h t => cases t
    | cons i2 is =>
      rw [finishAll.eq_3 _ _ _ _ _ (by simp)]
      have key := fun o' rest => c.finishOptionBy_iff p hs ho i [] o' rest
      have ih := ih (by simp)
      constructor
      · intro h
        cases hf : c.finishOption c.parsers i [] with
        | error f => rw [hf] at h; cases h
        | ok r =>
          obtain ⟨o, a⟩ := r
          rw [hf] at h
          dsimp only at h
          cases hg : c.finishAll c.parsers (i2 :: is) args with
          | error f => rw [hg] at h; cases h
          | ok r =>
            obtain ⟨os', a'⟩ := r
            rw [hg] at h; cases h
            obtain ⟨taken, e, hc⟩ := (key _ _).1 hf
            obtain ⟨taken', e', hc'⟩ := (ih _).1 hg
            have := List.append_eq_nil_iff.1 e.symm
            rw [this.1] at hc
            exact ⟨taken', e', .cons hc hc'⟩
      · rintro ⟨taken, e, hc⟩
        cases hc with
        | cons h t =>
          rw [(key _ []).2 ⟨[], rfl, h⟩]
          dsimp only
          rw [(ih _).2 ⟨taken, e, t⟩]

/-! ### The first pass -/

theorem passBy_reads (args : List Str) (os : List Opt) : PassBy c p args os ↔ ReadsBy c p args os := by
  constructor
  · intro h
    induction h with
    | nil => exact .nil
    | plain hp hf hd _ ih => exact .plain hp ((c.front_plain _).1 hf) hd ih
    | dashes hp hf => exact .terminator hp (c.front_dashes_iff.1 hf)
    | option hp hf hl h _ ih =>
      obtain ⟨items, hsp, rfl⟩ := (c.front_spells _ _ hl).1 hf
      obtain ⟨taken, rfl, hc⟩ := (c.finishAllBy_iff p hs ho _ hl _ _ _).1 h
      exact .option hp hsp hc ih
    | own hp hl h _ ih =>
      obtain ⟨taken, rfl, hc⟩ := (c.finishAllBy_iff p hs ho _ hl _ _ _).1 h
      exact .own hp hl hc ih
  · intro h
    induction h with
    | nil => exact .nil
    | plain hp hf hd _ ih => exact .plain hp ((c.front_plain _).2 hf) hd ih
    | terminator hp hf => exact .dashes hp (c.front_dashes_iff.2 hf)
    | option hp hsp hc _ ih =>
      have h0 := spells_ne hsp
      exact .option hp ((c.front_iff _ _).2 (.inr ⟨_, hsp, rfl⟩)) (by simpa using h0)
        ((c.finishAllBy_iff p hs ho _ (by simpa using h0) _ _ _).2 ⟨_, rfl, hc⟩) ih
    | own hp hl hc _ ih => exact .own hp hl ((c.finishAllBy_iff p hs ho _ hl _ _ _).2 ⟨_, rfl, hc⟩) ih

theorem passBy_loop (args : List Str) (os : List Opt) (h : PassBy c p args os) (fuel : Nat) (hfu : args.length ≤ fuel) : c.loop fuel args = .ok os := by
  induction h generalizing fuel with
  | nil => cases fuel <;> rw [loop]
  | plain hp hf hd t ih =>
    cases fuel with
    | zero => simp at hfu
    | succ fuel =>
      rw [loop, c.step_idle p hs _ _ hp, hf]
      simp only [if_neg hd]
      rw [ih fuel (by simpa using hfu)]
      rfl
  | dashes hp hf =>
    cases fuel with
    | zero => simp at hfu
    | succ fuel =>
      rw [loop, c.step_idle p hs _ _ hp, hf]
      simp [loop]
  | @option tok rest l os rest' more hp hf hl h t ih =>
    cases fuel with
    | zero => simp at hfu
    | succ fuel =>
      rw [loop, c.step_idle p hs _ _ hp, hf]
      cases l with
      | nil => exact absurd rfl hl
      | cons o l =>
        simp only [h]
        have := c.finishAll_length _ _ _ _ _ h
        rw [ih fuel (by simp at hfu; omega)]
  | @own args l args1 os rest' more hp hl h t ih =>
    obtain ⟨tk, h0, e⟩ := ho.takes _ _ _ hp hl
    have hlt : args1.length < args.length := by
      rw [e, List.length_append]
      have := List.length_pos_of_ne_nil h0
      omega
    have := c.finishAll_length _ _ _ _ _ h
    cases args with
    | nil => simp at hlt
    | cons a args =>
      cases fuel with
      | zero => simp at hfu
      | succ fuel =>
        rw [loop, c.step_own p hs _ _ _ hp hlt, h]
        dsimp only
        rw [ih fuel (by simp at hfu hlt; omega)]

/-! ### Success -/

/-- The last step, after reading. -/
theorem finalizeBy_iff (args : List Str) (os os' : List Opt) (hr : ReadsBy c p args os) (hrg : c.regroup 0 os = .ok os') (res : List Opt) :
    c.finalize os = .ok res ↔ Labels c 0 os' res := by
  have hp := (c.passBy_reads p hs ho args os).2 hr
  have hw : ∀ o ∈ os', o.stringKey ≠ [] → o.positionKey = -1 := by
    intro o hm hk
    obtain ⟨o1, ho1, ps, _, rfl, _⟩ := (c.regroup_regrouped _ _ hrg).mem o hm
    exact (hp.made ho o1 ho1).position ho hk
  rw [c.finalize_eq _ _ hrg hw]
  cases hpos : c.positional with
  | none =>
    rw [labels_none c hpos]
    constructor
    · intro h; cases h; rfl
    · rintro rfl; rfl
  | some q =>
    dsimp only
    rw [labels_some c q hpos]
    have htm : tooMany q (unnamed os').length = true ↔ ¬ (unnamed os' = [] ∨ q.full (0 + (unnamed os').length - 1) = false) := by
      rw [tooMany_iff]
      simp
    by_cases ht : tooMany q (unnamed os').length = true
    · rw [if_pos ht]
      exact ⟨nofun, fun h => absurd h.1 (htm.1 ht)⟩
    · rw [if_neg ht]
      constructor
      · intro h; cases h
        exact ⟨Decidable.byContradiction fun h => ht (htm.2 h), rfl⟩
      · rintro ⟨_, rfl⟩; rfl

theorem run_grammarBy (args : List Str) (hlen : ∀ os, ReadsBy c p args os → (os.filter (·.stringKey = [])).length < 2147483648) (res : List Opt) :
    c.run args = .ok res ↔ ∃ os os', ReadsBy c p args os ∧ GathersAll c os os' ∧ Labels c 0 os' res := by
  unfold run runFuel
  constructor
  · intro h
    cases hl : c.loop (args.length + 1) args with
    | error f => rw [hl] at h; cases h
    | ok os =>
      rw [hl] at h
      dsimp only at h
      have hr := (c.passBy_reads p hs ho _ _).1 (c.loop_passBy p hs ho _ _ _ hl)
      obtain ⟨os', hrg⟩ := c.finalize_regroup _ _ h
      exact ⟨os, os', hr, c.regroup_gathersAll _ _ (hlen os hr) hrg, (c.finalizeBy_iff p hs ho args os os' hr hrg res).1 h⟩
  · rintro ⟨os, os', hr, hg, hl⟩
    rw [c.passBy_loop p hs ho _ _ ((c.passBy_reads p hs ho _ _).2 hr) _ (by omega)]
    exact (c.finalizeBy_iff p hs ho args os os' hr (gathersAll_regroup hg (hlen os hr)) res).2 hl

/-! ### Options that cannot be completed -/

theorem plainBy_not_looks {v : Str} (h : PlainBy c p v) (hl : LooksBy c p v) : False := by
  obtain ⟨h1, h2, _⟩ := c.lookahead_cases p hs ho v
  obtain ⟨o, os, e⟩ := h2.2 hl
  rw [h1.2 h] at e
  cases e

theorem blamedBy_plain {own t : Str} {taken : List Str} {b : Str} (h : PlainBy c p t) : BlamedBy c p own (t :: taken) b ↔ BlamedBy c p own taken b := by
  constructor
  · intro hb
    cases hb with
    | own h => exact .own fun v hv => h v (by simp [hv])
    | last pre post _ e hb hp =>
      cases pre with
      | nil =>
        cases e
        exact (c.plainBy_not_looks p hs ho h hb).elim
      | cons x pre =>
        simp only [List.cons_append, List.cons.injEq] at e
        exact .last pre post _ e.2 hb hp
  · intro hb
    cases hb with
    | own h' =>
      refine .own fun v hv => ?_
      rcases List.mem_cons.1 hv with rfl | hv
      · exact h
      · exact h' v hv
    | last pre post _ e hb hp => exact .last (t :: pre) post _ (by rw [e]; rfl) hb hp

theorem blamedBy_looks {own t : Str} {taken : List Str} {b : Str} (h : LooksBy c p t) : BlamedBy c p own (t :: taken) b ↔ BlamedBy c p t taken b := by
  constructor
  · intro hb
    cases hb with
    | own h' => exact (c.plainBy_not_looks p hs ho (h' t (by simp)) h).elim
    | last pre post _ e hb hp =>
      cases pre with
      | nil => cases e; exact .own hp
      | cons x pre =>
        simp only [List.cons_append, List.cons.injEq] at e
        exact .last pre post _ e.2 hb hp
  · intro hb
    cases hb with
    | own h' => exact .last [] taken _ rfl h h'
    | last pre post _ e hb hp => exact .last (t :: pre) post _ (by rw [e]; rfl) hb hp

theorem runsOut_plain {own key t : Str} {taken : List Str} {v : Str} {f : Fail} (h : PlainBy c p t) :
    RunsOut c p own key (t :: taken) v f ↔ RunsOut c p own key taken v f := by
  constructor
  · rintro (⟨hf, hb⟩ | ⟨hs, hv⟩ | ⟨hs, hv⟩)
    · exact .refused hf ((c.blamedBy_plain p hs ho h).1 hb)
    · exact .option hs hv
    · exact .options hs hv
  · rintro (⟨hf, hb⟩ | ⟨hs, hv⟩ | ⟨hs, hv⟩)
    · exact .refused hf ((c.blamedBy_plain p hs ho h).2 hb)
    · exact .option hs hv
    · exact .options hs hv

theorem runsOut_looks {own key t : Str} {taken : List Str} {v : Str} {f : Fail} (h : LooksBy c p t) :
    RunsOut c p own key (t :: taken) v f ↔ RunsOut c p t key taken v f := by
  constructor
  · rintro (⟨hf, hb⟩ | ⟨hs, hv⟩ | ⟨hs, hv⟩)
    · exact .refused hf ((c.blamedBy_looks p hs ho h).1 hb)
    · exact .option hs hv
    · exact .options hs hv
  · rintro (⟨hf, hb⟩ | ⟨hs, hv⟩ | ⟨hs, hv⟩)
    · exact .refused hf ((c.blamedBy_looks p hs ho h).2 hb)
    · exact .option hs hv
    · exact .options hs hv

/-- What the token at which values run out does to the scan. -/
theorem runsOut_first {own key v : Str} {f : Fail} : RunsOut c p own key [] v f ↔
    (∃ f', lookahead c.parsers [v] = .error f' ∧ f = f'.addContext key own c.canonicalPrefix) ∨
    (∃ o os, lookahead c.parsers [v] = .ok (o :: os)) ∧
      ((∃ f', c.lookup v = .error f' ∧ f = f'.addContext key v c.canonicalPrefix) ∨
       (∃ d, c.lookup v = .ok (some d)) ∧ f = (errSyntax .missingParameter).addContext key v c.canonicalPrefix) := by
  obtain ⟨_, h2, h3⟩ := c.lookahead_cases p hs ho v
  rw [h2]
  simp only [h3]
  constructor
  · rintro (⟨hf, hb⟩ | ⟨hs, hv⟩ | ⟨hs, hv⟩)
    · refine .inl ⟨_, hf, ?_⟩
      cases hb with
      | own => rfl
      | last pre post _ e => simp at e
    · exact .inr ⟨hs, .inr ⟨⟨_, lookup_denotes.2 hv⟩, rfl⟩⟩
    · exact .inr ⟨hs, .inl ⟨_, (c.lookup_ambiguous _ _).2 ⟨_, hv, rfl⟩, rfl⟩⟩
  · rintro (⟨f', hf, rfl⟩ | ⟨hs, ⟨f', hl, rfl⟩ | ⟨⟨d, hl⟩, rfl⟩⟩)
    · exact .refused hf (.own (by simp))
    · obtain ⟨alts, ha, rfl⟩ := (c.lookup_ambiguous _ _).1 hl
      exact .options hs ha
    · exact .option hs (lookup_denotes.1 hl)

theorem grabBy_error (n : Nat) (other : List Str) (opt : Opt) (orig : Str) (f : Fail) :
    c.grab c.parsers n other opt orig = .error f ↔
      ∃ taken v rest, other = taken ++ v :: rest ∧ taken.length < n ∧ (∀ v ∈ taken, TakeableBy c p v) ∧ RunsOut c p orig opt.stringKey taken v f := by
  induction n generalizing other opt orig with
  | zero => rw [grab]; simp
  | succ n ih =>
    cases other with
    | nil => rw [grab]; simp
    | cons t ts =>
      have key : ∀ orig', TakeableBy c p t → (∀ taken v, RunsOut c p orig opt.stringKey (t :: taken) v f ↔ RunsOut c p orig' opt.stringKey taken v f) →
          ¬ RunsOut c p orig opt.stringKey [] t f →
          (c.grab c.parsers n ts { opt with value := opt.value ++ [t], originalTokens := opt.originalTokens ++ [t] } orig' = .error f ↔
          ∃ taken v rest, t :: ts = taken ++ v :: rest ∧ taken.length < n + 1 ∧ (∀ v ∈ taken, TakeableBy c p v) ∧ RunsOut c p orig opt.stringKey taken v f) := by
        intro orig' htk hbad hnot
        rw [ih ts _ orig']
        constructor
        · rintro ⟨taken, v, rest, rfl, hl, ht, hb⟩
          refine ⟨t :: taken, v, rest, rfl, by simp [hl], ?_, (hbad _ _).2 hb⟩
          intro v hv
          rcases List.mem_cons.1 hv with rfl | hv
          · exact htk
          · exact ht v hv
        · rintro ⟨taken, v, rest, e, hl, ht, hb⟩
          cases taken with
          | nil => cases e; exact absurd hb hnot
          | cons x taken =>
            simp only [List.cons_append, List.cons.injEq] at e
            obtain ⟨rfl, rfl⟩ := e
            exact ⟨taken, v, rest, rfl, by simpa using hl, fun v hv => ht v (by simp [hv]), (hbad _ _).1 hb⟩
      have stop : ∀ f', ¬ TakeableBy c p t → (f' = f ↔ RunsOut c p orig opt.stringKey [] t f) → (Except.error f' = (Except.error f : Except Fail (Opt × List Str)) ↔
          ∃ taken v rest, t :: ts = taken ++ v :: rest ∧ taken.length < n + 1 ∧ (∀ v ∈ taken, TakeableBy c p v) ∧ RunsOut c p orig opt.stringKey taken v f) := by
        intro f' htk hf
        constructor
        · intro h; cases h
          exact ⟨[], t, ts, rfl, by simp, by simp, hf.1 rfl⟩
        · rintro ⟨taken, v, rest, e, hl, ht, hb⟩
          cases taken with
          | nil => cases e; rw [hf.2 hb]
          | cons x taken =>
            simp only [List.cons_append, List.cons.injEq] at e
            exact absurd (e.1 ▸ ht x (by simp)) htk
      have hfirst := c.runsOut_first p hs ho (own := orig) (key := opt.stringKey) (v := t) (f := f)
      have htake := c.takeableBy_iff p hs ho t
      obtain ⟨h1, h2, _⟩ := c.lookahead_cases p hs ho t
      rw [grab]
      cases hf : lookahead c.parsers [t] with
      | error f' =>
        refine stop _ (by rw [htake, hf]; simp) ?_
        rw [hfirst, hf]
        simp [eq_comm]
      | ok l =>
        cases l with
        | nil => exact key _ (htake.2 (.inl hf)) (fun taken v => c.runsOut_plain p hs ho (h1.1 hf)) (by rw [hfirst, hf]; simp)
        | cons o os =>
          simp only
          cases hl : c.lookup t with
          | error f' =>
            refine stop _ (by rw [htake, hf, hl]; simp) ?_
            rw [hfirst, hf, hl]
            simp [eq_comm]
          | ok d =>
            cases d with
            | none =>
              exact key _ (htake.2 (.inr ⟨⟨o, os, hf⟩, hl⟩)) (fun taken v => c.runsOut_looks p hs ho (h2.1 ⟨o, os, hf⟩)) (by rw [hfirst, hf, hl]; simp)
            | some d =>
              refine stop _ (by rw [htake, hf, hl]; simp) ?_
              rw [hfirst, hf, hl]
              simp [eq_comm]

omit hs ho in
theorem origFor_tokenOf (o : Opt) : origFor o = tokenOf o := by
  unfold origFor tokenOf
  cases o.originalTokens <;> rfl

theorem finishOptionBy_error (o : Opt) (other : List Str) (f : Fail) :
    c.finishOption c.parsers o other = .error f ↔ StuckBy c p o other f := by
  unfold finishOption
  by_cases h0 : o.stringKey = []
  · rw [if_pos h0]
    refine ⟨nofun, ?_⟩
    intro h
    cases h <;> exact absurd h0 ‹_›
  · rw [if_neg h0, origFor_tokenOf]
    dsimp only
    have hamb : ∀ alts, Ambiguous c o.stringKey alts → c.lookup o.stringKey = .error (errAmbiguous alts) := fun alts h => (c.lookup_ambiguous _ _).2 ⟨alts, h, rfl⟩
    have hden : ∀ d, Denotes c o.stringKey d → c.lookup o.stringKey = .ok (some d) := fun d h => lookup_denotes.2 h
    cases hl : c.lookup o.stringKey with
    | error f' =>
      dsimp only
      rw [hl] at hamb hden
      constructor
      · intro h; cases h
        obtain ⟨alts, ha, rfl⟩ := (c.lookup_ambiguous _ _).1 hl
        exact .ambiguous alts h0 ha
      · intro h
        cases h with
        | ambiguous alts _ ha => cases hamb alts ha; rfl
        | unknown _ hn => rw [lookup_unknown.2 hn] at hl; cases hl
        | missing d _ hd => cases hden d hd
        | extra d _ hd => cases hden d hd
        | runsOut d _ _ _ _ _ hd => cases hden d hd
    | ok d =>
      rw [hl] at hamb hden
      cases d with
      | none =>
        dsimp only
        have hn := lookup_unknown.1 hl
        by_cases hu : c.allowUnregistered = true
        · rw [if_pos hu]
          refine ⟨nofun, ?_⟩
          intro h
          cases h with
          | ambiguous alts _ ha => cases hamb alts ha
          | unknown _ _ h => rw [hu] at h; cases h
          | missing d _ hd => cases hden d hd
          | extra d _ hd => cases hden d hd
          | runsOut d _ _ _ _ _ hd => cases hden d hd
        · rw [if_neg hu]
          constructor
          · intro h; cases h
            exact .unknown h0 hn (by simpa using hu)
          · intro h
            cases h with
            | ambiguous alts _ ha => cases hamb alts ha
            | unknown _ _ h => rfl
            | missing d _ hd => cases hden d hd
            | extra d _ hd => cases hden d hd
            | runsOut d _ _ _ _ _ hd => cases hden d hd
      | some d =>
        dsimp only
        have hd := lookup_denotes.1 hl
        rw [key_eq]
        by_cases hm : o.value.length + other.length ≥ d.semantic.minTokens
        · rw [if_pos hm]
          by_cases hx : o.value ≠ [] ∧ d.semantic.maxTokens = 0
          · rw [if_pos hx]
            constructor
            · intro h; cases h
              exact .extra d h0 hd hm hx.1 hx.2
            · intro h
              cases h with
              | ambiguous alts _ ha => cases hamb alts ha
              | unknown _ hn => rw [lookup_unknown.2 hn] at hl; cases hl
              | missing d' _ hd' hm' => cases hden d' hd'; omega
              | extra d' _ hd' => cases hden d' hd'; rfl
              | runsOut d' _ _ _ _ _ hd' _ hx' => cases hden d' hd'; exact absurd (hx' hx.2) hx.1
          · rw [if_neg hx, c.grabBy_error p hs ho]
            dsimp only
            have hx' : d.semantic.maxTokens = 0 → o.value = [] := fun h => Decidable.byContradiction fun hne => hx ⟨hne, h⟩
            constructor
            · rintro ⟨taken, v, rest, rfl, hlen, ht, hb⟩
              exact .runsOut d taken rest v _ h0 hd hm hx' rfl (by omega) ht hb
            · intro h
              cases h with
              | ambiguous alts _ ha => cases hamb alts ha
              | unknown _ hn => rw [lookup_unknown.2 hn] at hl; cases hl
              | missing d' _ hd' hm' => cases hden d' hd'; omega
              | extra d' _ hd' _ hv' h0' => cases hden d' hd'; exact absurd ⟨hv', h0'⟩ hx
              | runsOut d' taken rest v f _ hd' _ _ e hlen ht hf =>
                cases hden d' hd'
                exact ⟨taken, v, rest, e, by omega, ht, hf⟩
        · rw [if_neg hm]
          constructor
          · intro h; cases h
            exact .missing d h0 hd (by omega)
          · intro h
            cases h with
            | ambiguous alts _ ha => cases hamb alts ha
            | unknown _ hn => rw [lookup_unknown.2 hn] at hl; cases hl
            | missing d' _ hd' hm' => cases hden d' hd'; rfl
            | extra d' _ hd' hm' => cases hden d' hd'; exact absurd hm' hm
            | runsOut d' _ _ _ _ _ hd' hm' => cases hden d' hd'; exact absurd hm' hm

theorem finishAllBy_error (l : List Opt) (h0 : l ≠ []) (args : List Str) (f : Fail) :
    c.finishAll c.parsers l args = .error f ↔ StuckAllBy c p l args f := by
  induction l with
  | nil => exact absurd rfl h0
  | cons i is ih =>
    cases is with
    | nil =>
      rw [finishAll]
      have key := c.finishOptionBy_error p hs ho i args
      constructor
      · intro h
        cases hf : c.finishOption c.parsers i args with
        | error f' =>
          rw [hf] at h; cases h
          exact .one ((key _).1 hf)
        | ok r => rw [hf] at h; cases h
      · intro hst
        cases hst with
        | one h => rw [(key _).2 h]
        | head h => exact absurd rfl h
        | tail h s => cases s
    | cons i2 is =>
      rw [finishAll.eq_3 _ _ _ _ _ (by simp)]
      have key := c.finishOptionBy_error p hs ho i []
      have key' := fun o' rest => c.finishOptionBy_iff p hs ho i [] o' rest
      have ih := ih (by simp)
      constructor
      · intro h
        cases hf : c.finishOption c.parsers i [] with
        | error f' =>
          rw [hf] at h; cases h
          exact .head (by simp) ((key _).1 hf)
        | ok r =>
          obtain ⟨o, a⟩ := r
          rw [hf] at h
          dsimp only at h
          cases hg : c.finishAll c.parsers (i2 :: is) args with
          | ok r => rw [hg] at h; cases h
          | error f' =>
            rw [hg] at h; cases h
            obtain ⟨taken, e, hc⟩ := (key' _ _).1 hf
            have := List.append_eq_nil_iff.1 e.symm
            rw [this.1] at hc
            exact .tail hc (ih.1 hg)
      · intro hst
        cases hst with
        | head _ h => rw [(key _).2 h]
        | tail h s =>
          rw [(key' _ []).2 ⟨[], rfl, h⟩]
          dsimp only
          rw [ih.2 s]

/-! ### The first token at fault -/

omit ho in
theorem step_throws (args : List Str) (f : Fail) (hp : p args = .error f) : c.step args = .error f := by
  unfold step
  generalize hall : c.parsers = all
  have e := c.parsers_own p hs
  rw [hall] at e
  rw [show c.tryParsers all all = c.tryParsers all (p :: (c.tokParsers ++ [parseTerminator])) by rw [← e], tryParsers, hp]

omit hs in
theorem Orderly_shorter (args : List Str) (l : List Opt) (args1 : List Str) (hp : p args = .ok (l, args1)) (hl : l ≠ []) : args1.length < args.length := by
  obtain ⟨tk, h0, e⟩ := ho.takes _ _ _ hp hl
  rw [e, List.length_append]
  have := List.length_pos_of_ne_nil h0
  omega

theorem loop_breaksBy (fuel : Nat) (args : List Str) (f : Fail) (hfu : args.length ≤ fuel) (h : c.loop fuel args = .error f) : BreaksBy c p args f := by
  induction fuel generalizing args with
  | zero =>
    cases args with
    | nil => rw [loop] at h; cases h
    | cons a args => simp at hfu
  | succ fuel ih =>
    cases args with
    | nil => rw [loop] at h; cases h
    | cons tok rest =>
      rw [loop] at h
      have hfu : rest.length ≤ fuel := by simpa using hfu
      cases hp : p (tok :: rest) with
      | error f' =>
        rw [c.step_throws p hs _ _ hp] at h
        cases h
        exact .fails hp
      | ok r =>
        obtain ⟨l, args1⟩ := r
        cases l with
        | nil =>
          cases ho.idle _ _ hp
          rw [c.step_idle p hs tok rest hp] at h
          cases hf : c.front tok with
          | error f' =>
            rw [hf] at h; cases h
            obtain ⟨cls, n, t, hm, rfl⟩ := (c.front_malformed _ _).1 hf
            exact .malformed hp hm
          | ok l =>
            rw [hf] at h
            cases l with
            | nil =>
              simp only at h
              by_cases hd : tok = ['-', '-']
              · rw [if_pos hd] at h
                simp only [loop] at h
                cases h
              · rw [if_neg hd] at h
                simp only at h
                cases hl : c.loop fuel rest with
                | error f' =>
                  rw [hl] at h; cases h
                  exact .plain hp ((c.front_plain _).1 hf) hd (ih _ hfu hl)
                | ok more => rw [hl] at h; cases h
            | cons o l =>
              simp only at h
              obtain ⟨items, hsp, e⟩ := (c.front_spells _ _ (by simp)).1 hf
              cases hfin : c.finishAll c.parsers (o :: l) rest with
              | error f' =>
                rw [hfin] at h; cases h
                have := (c.finishAllBy_error p hs ho _ (by simp) _ _).1 hfin
                rw [e] at this
                exact .stuck hp hsp this
              | ok r =>
                obtain ⟨os1, rest'⟩ := r
                rw [hfin] at h
                simp only at h
                obtain ⟨taken, rfl, hc⟩ := (c.finishAllBy_iff p hs ho _ (by simp) rest _ _).1 hfin
                rw [e] at hc
                cases hl : c.loop fuel rest' with
                | ok more => rw [hl] at h; cases h
                | error f' =>
                  rw [hl] at h; cases h
                  exact .option hp hsp hc (ih _ (by simp at hfu; omega) hl)
        | cons o l =>
          have hlt := Orderly_shorter p ho _ _ _ hp (by simp)
          rw [c.step_own p hs _ _ _ hp hlt] at h
          cases hfin : c.finishAll c.parsers (o :: l) args1 with
          | error f' =>
            rw [hfin] at h; cases h
            exact .stuckOwn hp (by simp) ((c.finishAllBy_error p hs ho _ (by simp) _ _).1 hfin)
          | ok r =>
            obtain ⟨os1, rest'⟩ := r
            rw [hfin] at h
            simp only at h
            obtain ⟨taken, rfl, hc⟩ := (c.finishAllBy_iff p hs ho _ (by simp) _ _ _).1 hfin
            cases hl : c.loop fuel rest' with
            | ok more => rw [hl] at h; cases h
            | error f' =>
              rw [hl] at h; cases h
              exact .own hp (by simp) hc (ih _ (by simp at hlt; omega) hl)

theorem breaksBy_loop (args : List Str) (f : Fail) (h : BreaksBy c p args f) (fuel : Nat) (hfu : args.length ≤ fuel) : c.loop fuel args = .error f := by
  induction h generalizing fuel with
  | fails hp =>
    cases fuel with
    | zero => simp at hfu
    | succ fuel => rw [loop, c.step_throws p hs _ _ hp]
  | malformed hp h =>
    cases fuel with
    | zero => simp at hfu
    | succ fuel => rw [loop, c.step_idle p hs _ _ hp, (c.front_malformed _ _).2 ⟨_, _, _, h, rfl⟩]
  | @stuck tok items rest f hp h hst =>
    cases fuel with
    | zero => simp at hfu
    | succ fuel =>
      rw [loop, c.step_idle p hs _ _ hp, (c.front_iff _ _).2 (.inr ⟨_, h, rfl⟩)]
      have := (c.finishAllBy_error p hs ho (items.map Item.option) (by simpa using spells_ne h) rest _).2 hst
      cases items with
      | nil => exact absurd rfl (spells_ne h)
      | cons i is =>
        rw [show (i :: is).map Item.toOpt = i.toOpt :: is.map Item.toOpt from rfl]
        dsimp only
        rw [show i.toOpt :: is.map Item.toOpt = (i :: is).map Item.option from rfl, this]
  | @stuckOwn tok rest l args' f hp hl hst =>
    cases fuel with
    | zero => simp at hfu
    | succ fuel =>
      rw [loop, c.step_own p hs _ _ _ hp (Orderly_shorter p ho _ _ _ hp hl), (c.finishAllBy_error p hs ho _ hl _ _).2 hst]
  | plain hp h hd _ ih =>
    cases fuel with
    | zero => simp at hfu
    | succ fuel =>
      rw [loop, c.step_idle p hs _ _ hp, (c.front_plain _).2 h]
      simp only [if_neg hd]
      rw [ih fuel (by simpa using hfu)]
  | @option tok items taken os rest f hp h hc _ ih =>
    cases fuel with
    | zero => simp at hfu
    | succ fuel =>
      rw [loop, c.step_idle p hs _ _ hp, (c.front_iff _ _).2 (.inr ⟨_, h, rfl⟩)]
      have := (c.finishAllBy_iff p hs ho (items.map Item.option) (by simpa using spells_ne h) (taken ++ rest) os rest).2 ⟨_, rfl, hc⟩
      cases items with
      | nil => exact absurd rfl (spells_ne h)
      | cons i is =>
        rw [show (i :: is).map Item.toOpt = i.toOpt :: is.map Item.toOpt from rfl]
        dsimp only
        rw [show i.toOpt :: is.map Item.toOpt = (i :: is).map Item.option from rfl, this]
        dsimp only
        rw [ih fuel (by simp at hfu; omega)]
  | @own tok args l taken os rest f hp hl hc _ ih =>
    cases fuel with
    | zero => simp at hfu
    | succ fuel =>
      have hlt := Orderly_shorter p ho _ _ _ hp hl
      rw [loop, c.step_own p hs _ _ _ hp hlt, (c.finishAllBy_iff p hs ho _ hl _ os rest).2 ⟨_, rfl, hc⟩]
      dsimp only
      rw [ih fuel (by simp at hfu hlt; omega)]

/-! ### Refusal -/

theorem run_refusedBy (args : List Str) (hlen : ∀ os, ReadsBy c p args os → (os.filter (·.stringKey = [])).length < 2147483648) (f : Fail) :
    c.run args = .error f ↔ RefusedBy c p args f := by
  unfold run runFuel
  have key : ∀ os os', ReadsBy c p args os → c.regroup 0 os = .ok os' → (c.finalize os = .error f ↔
      ∃ q, c.positional = some q ∧ q.trailing = [] ∧ q.names.length < (unnamed os').length ∧ f = .tooManyPositional) := by
    intro os os' hr hrg
    have hp := (c.passBy_reads p hs ho args os).2 hr
    have hw : ∀ o ∈ os', o.stringKey ≠ [] → o.positionKey = -1 := by
      intro o hm hk
      obtain ⟨o1, ho1, ps, _, rfl, _⟩ := (c.regroup_regrouped _ _ hrg).mem o hm
      exact (hp.made ho o1 ho1).position ho hk
    rw [c.finalize_eq _ _ hrg hw]
    cases hpos : c.positional with
    | none => simp
    | some q =>
      dsimp only
      by_cases ht : tooMany q (unnamed os').length = true
      · rw [if_pos ht]
        have := (tooMany_trailing q _).1 ht
        simp [this, eq_comm]
      · rw [if_neg ht]
        refine ⟨nofun, ?_⟩
        rintro ⟨q', e, h1, h2, _⟩
        cases e
        exact absurd ((tooMany_trailing q _).2 ⟨h1, h2⟩) ht
  constructor
  · intro h
    cases hl : c.loop (args.length + 1) args with
    | error f' =>
      rw [hl] at h; cases h
      exact .reading (c.loop_breaksBy p hs ho _ _ _ (by omega) hl)
    | ok os =>
      rw [hl] at h
      dsimp only at h
      have hr := (c.passBy_reads p hs ho args os).1 (c.loop_passBy p hs ho _ _ _ hl)
      have hb := hlen os hr
      cases hrg : c.regroup 0 os with
      | error f' =>
        rw [finalize, hrg] at h; cases h
        exact .gathering hr (c.regroup_clashesAll os _ hb hrg)
      | ok os' =>
        obtain ⟨q, h1, h2, h3, rfl⟩ := (key os os' hr hrg).1 h
        exact .labelling q hr (c.regroup_gathersAll _ _ hb hrg) h1 h2 h3
  · intro h
    cases h with
    | reading h => rw [c.breaksBy_loop p hs ho _ _ h _ (by omega)]
    | @gathering os _ h hc =>
      rw [c.passBy_loop p hs ho _ _ ((c.passBy_reads p hs ho _ _).2 h) _ (by omega)]
      dsimp only
      rw [finalize, clashesAll_regroup hc (hlen os h)]
    | @labelling os os' q h hg hp ht hn =>
      rw [c.passBy_loop p hs ho _ _ ((c.passBy_reads p hs ho _ _).2 h) _ (by omega)]
      exact (key _ _ h (gathersAll_regroup hg (hlen os h))).2 ⟨q, hp, ht, hn, rfl⟩

end

end Cmdline
end PO
