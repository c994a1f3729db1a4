import Verif.Lemmas.CmdlineLike
import Verif.Spec.Grammar
/-
The style parsers recognise exactly the tokens described by the grammar.
-/
namespace PO
open Spec

/-- The option a style parser returns for an item. -/
def Spec.Item.toOpt (i : Item) : Opt := { stringKey := i.name, value := i.value, originalTokens := i.tokens }

namespace Cmdline

/-- What one style parser makes of a token. -/
def one (p : StyleParser) (tok : Str) : Except Fail (List Opt) := lookahead [p] [tok]

theorem lookahead_or (ps qs : List StyleParser) (hps : ∀ p ∈ ps, TokParser p) (tok : Str) (l : List Opt) :
    lookahead (ps ++ qs) [tok] = .ok l ↔
      lookahead ps [tok] = .ok l ∧ l ≠ [] ∨ lookahead ps [tok] = .ok [] ∧ lookahead qs [tok] = .ok l := by
  induction ps with
  | nil =>
    simp only [List.nil_append]
    rw [show lookahead [] [tok] = .ok [] from rfl]
    constructor
    · intro h; exact .inr ⟨rfl, h⟩
    · rintro (⟨h, h0⟩ | ⟨_, h⟩)
      · cases h; exact absurd rfl h0
      · exact h
  | cons p ps ih =>
    obtain ⟨g, hg⟩ := hps p (by simp)
    rw [List.cons_append, lookahead_cons_tok hg, lookahead_cons_tok hg]
    cases hgt : g tok with
    | error f =>
      constructor
      · intro h; cases h
      · rintro (⟨h, _⟩ | ⟨h, _⟩) <;> cases h
    | ok r =>
      cases r with
      | nil => exact ih (fun q hq => hps q (by simp [hq]))
      | cons o os =>
        constructor
        · intro h; cases h; exact .inl ⟨rfl, by simp⟩
        · rintro (⟨h, _⟩ | ⟨h, _⟩)
          · exact h
          · cases h

theorem one_eq (p : StyleParser) (tok : Str) (l : List Opt) (hp : TokParser p) :
    lookahead [p] [tok] = .ok l ↔ ∃ rest, p [tok] = .ok (l, rest) := by
  obtain ⟨g, hg⟩ := hp
  rw [lookahead_cons_tok hg, hg]
  cases g tok with
  | error f =>
    constructor
    · intro h; cases h
    · rintro ⟨_, h⟩; cases h
  | ok r =>
    cases r with
    | nil =>
      constructor
      · intro h; cases h; exact ⟨_, rfl⟩
      · rintro ⟨_, h⟩; cases h; rfl
    | cons o os =>
      constructor
      · intro h; cases h; exact ⟨_, rfl⟩
      · rintro ⟨_, h⟩; cases h; rfl

/-! ### The stages -/

theorem stage_additional (c : Cmdline) (tok : Str) (l : List Opt) :
    lookahead (match c.additional with | some f => [parseAdditional f] | none => []) [tok] = .ok l ↔
      (Unclaimed c tok ∧ l = []) ∨
      ∃ f, c.additional = some f ∧ (f tok).1 ≠ [] ∧ l = [(⟨(f tok).1, if (f tok).2 = [] then [] else [(f tok).2], []⟩ : Item).toOpt] := by
  unfold Unclaimed
  cases c.additional with
  | none =>
    constructor
    · intro h; cases h; exact .inl ⟨fun f h => (by cases h), rfl⟩
    · rintro (⟨_, rfl⟩ | ⟨f, h, _⟩)
      · rfl
      · cases h
  | some f =>
    simp only
    rw [one_eq _ _ _ (.additional f), parseAdditional]
    by_cases h : (f tok).1 = []
    · simp only [if_pos h]
      constructor
      · rintro ⟨_, h'⟩; cases h'; exact .inl ⟨fun g hg => by cases hg; exact h, rfl⟩
      · rintro (⟨_, rfl⟩ | ⟨g, hg, hn, _⟩)
        · exact ⟨_, rfl⟩
        · cases hg; exact absurd h hn
    · simp only [if_neg h]
      constructor
      · rintro ⟨_, h'⟩; cases h'; exact .inr ⟨f, rfl, h, rfl⟩
      · rintro (⟨hu, _⟩ | ⟨g, hg, hn, rfl⟩)
        · exact absurd (hu f rfl) h
        · cases hg; exact ⟨_, rfl⟩

theorem parseLong_iff (c : Cmdline) (tok : Str) (l : List Opt) :
    (∃ rest, c.parseLong [tok] = .ok (l, rest)) ↔
      ((3 ≤ tok.length → ¬ ['-', '-'] <+: tok) ∧ l = []) ∨
      (∃ name, tok = '-' :: '-' :: name ∧ '=' ∉ name ∧ name ≠ [] ∧ l = [(⟨name, [], [tok]⟩ : Item).toOpt]) ∨
      (∃ name v, tok = '-' :: '-' :: name ++ '=' :: v ∧ '=' ∉ name ∧ v ≠ [] ∧ l = [(⟨name, [v], [tok]⟩ : Item).toOpt]) := by
  constructor
  · rintro ⟨rest, h⟩
    by_cases hp : ['-', '-'] <+: tok
    · obtain ⟨s, rfl⟩ := hp
      simp only [List.cons_append, List.nil_append] at h ⊢
      rcases long_cases s with hs | ⟨name, rfl, hn⟩ | ⟨name, v, rfl, hn, hv⟩
      · by_cases h0 : s = []
        · subst h0
          rw [c.parseLong_other _ _ (.inl rfl)] at h
          cases h; exact .inl ⟨by simp, rfl⟩
        · rw [c.parseLong_name _ _ hs h0] at h
          cases h; exact .inr (.inl ⟨s, rfl, hs, h0, rfl⟩)
      · rw [← List.cons_append, ← List.cons_append, c.parseLong_empty _ _ hn] at h; cases h
      · rw [← List.cons_append, ← List.cons_append, c.parseLong_eq _ _ _ hn hv] at h
        cases h; exact .inr (.inr ⟨name, v, rfl, hn, hv, rfl⟩)
    · rw [c.parseLong_other _ _ (.inr hp)] at h
      cases h; exact .inl ⟨fun _ => hp, rfl⟩
  · rintro (⟨h, rfl⟩ | ⟨name, rfl, hn, h0, rfl⟩ | ⟨name, v, rfl, hn, hv, rfl⟩)
    · refine ⟨[tok], c.parseLong_other _ _ ?_⟩
      by_cases hp : ['-', '-'] <+: tok
      · left
        obtain ⟨s, rfl⟩ := hp
        cases s with
        | nil => rfl
        | cons x s => exact absurd (by simp) (h (by simp))
      · exact .inr hp
    · exact ⟨_, c.parseLong_name _ _ hn h0⟩
    · exact ⟨_, c.parseLong_eq _ _ _ hn hv⟩

theorem stage_long (c : Cmdline) (tok : Str) (l : List Opt) :
    lookahead (if active c.style Style.allowLong then [c.parseLong] else []) [tok] = .ok l ↔
      ((Enabled c Style.allowLong → 3 ≤ tok.length → ¬ ['-', '-'] <+: tok) ∧ l = []) ∨
      (∃ name, Enabled c Style.allowLong ∧ tok = '-' :: '-' :: name ∧ '=' ∉ name ∧ name ≠ [] ∧ l = [(⟨name, [], [tok]⟩ : Item).toOpt]) ∨
      (∃ name v, Enabled c Style.allowLong ∧ tok = '-' :: '-' :: name ++ '=' :: v ∧ '=' ∉ name ∧ v ≠ [] ∧ l = [(⟨name, [v], [tok]⟩ : Item).toOpt]) := by
  by_cases he : active c.style Style.allowLong = true
  · rw [if_pos he, one_eq _ _ _ (.long c), parseLong_iff]
    have he' : Enabled c Style.allowLong := he
    simp only [he', true_and, forall_const]
  · rw [if_neg he]
    have he' : ¬ Enabled c Style.allowLong := he
    simp only [he', false_and, exists_false, or_false, false_imp_iff, true_and]
    constructor
    · intro h; cases h; rfl
    · rintro rfl; rfl

theorem beforeEq_of_not_mem {s : Str} (h : '=' ∉ s) : beforeEq s = s := by
  have := List.takeWhile_append_of_pos (p := fun x : Char => decide (x ≠ '=')) (l₁ := s) (l₂ := [])
    (by intro x hx; simp; rintro rfl; exact h hx)
  simpa [beforeEq] using this

theorem beforeEq_append {s v : Str} (h : '=' ∉ s) : beforeEq (s ++ '=' :: v) = s := by
  unfold beforeEq
  rw [List.takeWhile_append_of_pos (by intro x hx; simp; rintro rfl; exact h hx)]
  simp

theorem disguisedName_eq (lead : Char) (rest : Str) (h : lead ≠ '=') : disguisedName (lead :: rest) = beforeEq rest := by
  unfold disguisedName
  rcases long_cases rest with hs | ⟨name, rfl, hn⟩ | ⟨name, v, rfl, hn, hv⟩
  · rw [findChar_eq_none.2 (by simp [hs, Ne.symm h]), beforeEq_of_not_mem hs]
    rfl
  · rw [show lead :: (name ++ ['=']) = (lead :: name) ++ '=' :: [] by simp, findChar_append (by simp [hn, Ne.symm h]), beforeEq_append hn]
    simp [substr]
  · rw [show lead :: (name ++ '=' :: v) = (lead :: name) ++ '=' :: v by simp, findChar_append (by simp [hn, Ne.symm h]), beforeEq_append hn]
    simp [substr]

theorem disguise_iff (c : Cmdline) (tok : Str) :
    (tok.length ≥ 2 ∧ ((tok[0]? = some '-' ∧ tok[1]? ≠ some '-') ∨
        (active c.style Style.allowSlashForShort = true ∧ tok[0]? = some '/'))) ↔
      ∃ lead rest, tok = lead :: rest ∧ Disguise c lead rest := by
  unfold Disguise Enabled
  cases tok with
  | nil => simp
  | cons a r =>
    cases r with
    | nil => simp
    | cons b r =>
      simp only [List.length_cons, ge_iff_le, Nat.le_add_left, true_and, List.cons.injEq]
      constructor
      · rintro (⟨h1, h2⟩ | ⟨h1, h2⟩)
        · exact ⟨a, b :: r, ⟨rfl, rfl⟩, by simp, .inl ⟨by simpa using h1, by simpa using h2⟩⟩
        · exact ⟨a, b :: r, ⟨rfl, rfl⟩, by simp, .inr ⟨by simpa using h2, h1⟩⟩
      · rintro ⟨_, _, ⟨rfl, rfl⟩, _, (⟨h1, h2⟩ | ⟨h1, h2⟩)⟩
        · exact .inl ⟨by simp [h1], by simpa using h2⟩
        · exact .inr ⟨h2, by simp [h1]⟩

theorem stage_disguised (c : Cmdline) (tok : Str) (l : List Opt) :
    lookahead (if active c.style Style.allowLongDisguise then [c.parseDisguised] else []) [tok] = .ok l ↔
      (NotDisguised c tok ∧ l = []) ∨
      (∃ lead name d, Enabled c Style.allowLongDisguise ∧ tok = lead :: name ∧ Disguise c lead name ∧ '=' ∉ name ∧ Denotes c name d ∧
        l = [(⟨name, [], ['-' :: '-' :: name]⟩ : Item).toOpt]) ∨
      (∃ lead name v d, Enabled c Style.allowLongDisguise ∧ tok = lead :: name ++ '=' :: v ∧ Disguise c lead (name ++ '=' :: v) ∧ '=' ∉ name ∧ v ≠ [] ∧
        Denotes c name d ∧ l = [(⟨name, [v], ['-' :: '-' :: name ++ '=' :: v]⟩ : Item).toOpt]) := by
  unfold NotDisguised
  by_cases he : active c.style Style.allowLongDisguise = true
  · rw [if_pos he, one_eq _ _ _ (.disguised c)]
    have he' : Enabled c Style.allowLongDisguise := he
    simp only [he', true_and, forall_const]
    by_cases hd : ∃ lead rest, tok = lead :: rest ∧ Disguise c lead rest
    · have hd' := hd
      obtain ⟨lead, rest, rfl, hdis⟩ := hd
      rw [parseDisguised, if_pos ((c.disguise_iff _).2 hd')]
      have hlead : lead = '-' ∨ lead = '/' := by
        rcases hdis.2 with h | h
        · exact .inl h.1
        · exact .inr h.1
      rw [disguisedName_eq _ _ (by rcases hlead with rfl | rfl <;> decide)]
      have hund : undisguise (lead :: rest) = '-' :: '-' :: rest := by
        rcases hlead with rfl | rfl <;> simp [undisguise]
      rw [hund]
      cases hl : c.lookup (beforeEq rest) with
      | error f =>
        constructor
        · rintro ⟨_, h⟩; cases h
        · rintro (⟨h, _⟩ | ⟨lead', name, d, e, _, hn, hden, _⟩ | ⟨lead', name, v, d, e, _, hn, hv, hden, _⟩)
          · rw [lookup_unknown.2 (h lead rest rfl hdis)] at hl; cases hl
          · simp only [List.cons.injEq] at e
            rw [e.2, beforeEq_of_not_mem hn, lookup_denotes.2 hden] at hl; cases hl
          · simp only [List.cons_append, List.cons.injEq] at e
            rw [e.2, beforeEq_append hn, lookup_denotes.2 hden] at hl; cases hl
      | ok d =>
        cases d with
        | none =>
          constructor
          · rintro ⟨_, h⟩; cases h
            refine .inl ⟨?_, rfl⟩
            rintro lead' rest' e _
            cases e
            exact lookup_unknown.1 hl
          · rintro (⟨h, rfl⟩ | ⟨lead', name, d, e, _, hn, hden, _⟩ | ⟨lead', name, v, d, e, _, hn, hv, hden, _⟩)
            · exact ⟨_, rfl⟩
            · simp only [List.cons.injEq] at e
              rw [e.2, beforeEq_of_not_mem hn, lookup_denotes.2 hden] at hl; cases hl
            · simp only [List.cons_append, List.cons.injEq] at e
              rw [e.2, beforeEq_append hn, lookup_denotes.2 hden] at hl; cases hl
        | some d =>
          simp only
          have hden := lookup_denotes.1 hl
          have hpl := c.parseLong_iff ('-' :: '-' :: rest) l
          constructor
          · intro h
            have : ∃ r, c.parseLong ['-' :: '-' :: rest] = .ok (l, r) := by
              obtain ⟨r, h⟩ := h
              cases hq : c.parseLong ['-' :: '-' :: rest] with
              | error f => rw [hq] at h; cases h
              | ok q => rw [hq] at h; cases h; exact ⟨_, rfl⟩
            rcases hpl.1 this with ⟨h3, rfl⟩ | ⟨name, e, hn, h0, rfl⟩ | ⟨name, v, e, hn, hv, rfl⟩
            · exact absurd (by simp) (h3 (by have := List.length_pos_iff.2 hdis.1; simp only [List.length_cons]; omega))
            · simp only [List.cons.injEq, true_and] at e
              subst e
              rw [beforeEq_of_not_mem hn] at hden
              exact .inr (.inl ⟨lead, rest, d, rfl, hdis, hn, hden, rfl⟩)
            · simp only [List.cons_append, List.cons.injEq, true_and] at e
              subst e
              rw [beforeEq_append hn] at hden
              exact .inr (.inr ⟨lead, name, v, d, rfl, hdis, hn, hv, hden, rfl⟩)
          · intro h
            have : ∃ r, c.parseLong ['-' :: '-' :: rest] = .ok (l, r) := by
              refine hpl.2 ?_
              rcases h with ⟨h, rfl⟩ | ⟨lead', name, d', e, _, hn, hd', rfl⟩ | ⟨lead', name, v, d', e, _, hn, hv, hd', rfl⟩
              · have := lookup_unknown.2 (h lead rest rfl hdis)
                rw [hl] at this; cases this
              · simp only [List.cons.injEq] at e
                refine .inr (.inl ⟨rest, rfl, by rw [e.2]; exact hn, hdis.1, by rw [e.2]⟩)
              · simp only [List.cons_append, List.cons.injEq] at e
                refine .inr (.inr ⟨name, v, by rw [e.2]; rfl, hn, hv, by rw [e.2]; rfl⟩)
            obtain ⟨r, hr⟩ := this
            rw [hr]
            exact ⟨_, rfl⟩
    · rw [parseDisguised, if_neg (fun h => hd ((c.disguise_iff _).1 h))]
      constructor
      · rintro ⟨_, h⟩; cases h
        exact .inl ⟨fun lead rest e hdis => absurd ⟨lead, rest, e, hdis⟩ hd, rfl⟩
      · rintro (⟨_, rfl⟩ | ⟨lead, name, d, e, hdis, _⟩ | ⟨lead, name, v, d, e, hdis, _⟩)
        · exact ⟨_, rfl⟩
        · exact absurd ⟨_, _, e, hdis⟩ hd
        · exact absurd ⟨_, _, e, hdis⟩ hd
  · rw [if_neg he]
    have he' : ¬ Enabled c Style.allowLongDisguise := he
    simp only [he', false_and, exists_false, or_false, false_imp_iff, true_and]
    constructor
    · intro h; cases h; rfl
    · rintro rfl; rfl

/-! ### Groups of short options -/

theorem findShort_ok (c : Cmdline) (a : Char) (r : Option OptionDesc) :
    c.findShort ['-', a] = .ok r ↔ match r with | some d => DenotesLetter c a d | none => UnknownShort c a := by
  have key := C01_lookup_decision c.desc ['-', a] false false (active c.style Style.shortCaseInsensitive)
  unfold findShort
  rw [key]
  unfold DenotesLetter UnknownShort
  dsimp only
  have hex : ∀ d ∈ c.desc, d ∉ exacts c.desc ['-', a] false (active c.style Style.shortCaseInsensitive) →
      ¬ Exact d ['-', a] false (active c.style Style.shortCaseInsensitive) := by
    intro d hd h he
    exact h (by simp [exacts, hd, he])
  have hap : ∀ d ∈ c.desc, d ∉ exacts c.desc ['-', a] false (active c.style Style.shortCaseInsensitive) →
      d ∉ approximates c.desc ['-', a] false false (active c.style Style.shortCaseInsensitive) →
      ¬ Approximate d ['-', a] false false := by
    intro d hd h h' he
    exact h' (by simp [approximates, hd, he, hex d hd h])
  have hno : (∀ d ∈ c.desc, ¬ Exact d ['-', a] false (active c.style Style.shortCaseInsensitive) ∧ ¬ Approximate d ['-', a] false false) →
      exacts c.desc ['-', a] false (active c.style Style.shortCaseInsensitive) = [] ∧
      approximates c.desc ['-', a] false false (active c.style Style.shortCaseInsensitive) = [] := by
    intro h
    constructor
    · simp only [exacts, List.filter_eq_nil_iff, decide_eq_true_eq]
      exact fun d hd => (h d hd).1
    · simp only [approximates, List.filter_eq_nil_iff, decide_eq_true_eq]
      exact fun d hd h' => (h d hd).2 h'.2
  generalize hES : exacts c.desc ['-', a] false (active c.style Style.shortCaseInsensitive) = E at hex hap hno ⊢
  generalize hAS : approximates c.desc ['-', a] false false (active c.style Style.shortCaseInsensitive) = A at hap hno ⊢
  cases hE : E with
  | nil =>
    cases hA : A with
    | nil =>
      cases r with
      | none =>
        simp only [true_iff]
        intro d hd
        exact ⟨hex d hd (by simp [hE]), hap d hd (by simp [hE]) (by simp [hA])⟩
      | some d => simp
    | cons d ds =>
      cases ds with
      | nil =>
        cases r with
        | none =>
          constructor
          · intro h; cases h
          · intro h; have := (hno h).2; rw [hA] at this; cases this
        | some d' =>
          constructor
          · intro h; cases h; exact .inr ⟨rfl, rfl⟩
          · rintro (h | ⟨_, h⟩)
            · cases h
            · cases h; rfl
      | cons d2 ds =>
        cases r with
        | none =>
          constructor
          · intro h; cases h
          · intro h; have := (hno h).2; rw [hA] at this; cases this
        | some d' =>
          constructor
          · intro h; cases h
          · rintro (h | ⟨_, h⟩) <;> cases h
  | cons d ds =>
    cases ds with
    | nil =>
      cases r with
      | none =>
        constructor
        · intro h; cases h
        · intro h; have := (hno h).1; rw [hE] at this; cases this
      | some d' =>
        constructor
        · intro h; cases h; exact .inl rfl
        · rintro (h | ⟨h, _⟩)
          · cases h; rfl
          · cases h
    | cons d2 ds =>
      cases r with
      | none =>
        constructor
        · intro h; cases h
        · intro h; have := (hno h).1; rw [hE] at this; cases this
      | some d' =>
        constructor
        · intro h; cases h
        · rintro (h | ⟨h, _⟩) <;> cases h

theorem findShort_some (c : Cmdline) (a : Char) (r : Option OptionDesc) (h : c.findShort ['-', a] = .ok r) :
    (∃ d, DenotesLetter c a d) ∨ UnknownShort c a := by
  have := (c.findShort_ok a r).1 h
  cases r with
  | none => exact .inr this
  | some d => exact .inl ⟨d, this⟩

theorem findShort_of (c : Cmdline) (a : Char) (h : (∃ d, DenotesLetter c a d) ∨ UnknownShort c a) :
    ∃ r, c.findShort ['-', a] = .ok r := by
  rcases h with ⟨d, h⟩ | h
  · exact ⟨some d, (c.findShort_ok a (some d)).2 h⟩
  · exact ⟨none, (c.findShort_ok a none).2 h⟩

theorem takesNoValue_iff (c : Cmdline) (a : Char) (r : Option OptionDesc) (h : c.findShort ['-', a] = .ok r) :
    c.takesNoValue r = true ↔ GroupSwitch c a := by
  unfold takesNoValue GroupSwitch Enabled
  cases r with
  | none =>
    simp only [Bool.false_eq_true, false_iff]
    rintro ⟨_, d, hd, _⟩
    rw [(c.findShort_ok a (some d)).2 hd] at h
    cases h
  | some d =>
    have hd := (c.findShort_ok a (some d)).1 h
    simp only [Bool.and_eq_true, beq_iff_eq]
    constructor
    · rintro ⟨h1, h2⟩; exact ⟨h1, d, hd, h2⟩
    · rintro ⟨h1, d', hd', h2⟩
      rw [(c.findShort_ok a (some d')).2 hd'] at h
      cases h
      exact ⟨h1, h2⟩

theorem shortLoop_group (c : Cmdline) (tok : Str) (a : Char) (t : Str) (l : List Opt) :
    c.shortLoop tok ['-', a] t = .ok l ↔ ∃ items, Group c tok (a :: t) items ∧ l = items.map Item.toOpt := by
  induction t generalizing a l with
  | nil =>
    rw [shortLoop]
    constructor
    · intro h
      cases hf : c.findShort ['-', a] with
      | error f => rw [hf] at h; cases h
      | ok r =>
        rw [hf] at h; cases h
        exact ⟨_, .last a (c.findShort_some a r hf), rfl⟩
    · rintro ⟨items, hg, rfl⟩
      cases hg with
      | last _ h =>
        obtain ⟨r, hr⟩ := c.findShort_of a h
        rw [hr]; rfl
      | value _ _ hv => exact absurd rfl hv
      | switch _ _ _ ht => exact absurd rfl ht
  | cons b t ih =>
    rw [shortLoop]
    constructor
    · intro h
      cases hf : c.findShort ['-', a] with
      | error f => rw [hf] at h; cases h
      | ok r =>
        rw [hf] at h
        simp only at h
        by_cases ht : c.takesNoValue r = true
        · rw [if_pos ht] at h
          cases hs : c.shortLoop tok ['-', b] t with
          | error f => rw [hs] at h; cases h
          | ok os =>
            rw [hs] at h; cases h
            obtain ⟨items, hg, rfl⟩ := (ih b os).1 hs
            exact ⟨_, .switch a _ _ (by simp) ((c.takesNoValue_iff a r hf).1 ht) hg, rfl⟩
        · rw [if_neg ht] at h
          cases h
          exact ⟨_, .value a _ (by simp) (c.findShort_some a r hf) (fun hg => ht ((c.takesNoValue_iff a r hf).2 hg)), rfl⟩
    · rintro ⟨items, hg, rfl⟩
      cases hg with
      | value _ _ hv h hs =>
        obtain ⟨r, hr⟩ := c.findShort_of a h
        rw [hr]
        simp only
        rw [if_neg (fun ht => hs ((c.takesNoValue_iff a r hr).1 ht))]
        rfl
      | switch _ _ items ht h hg =>
        obtain ⟨d, hd, _⟩ := h.2
        have hr := (c.findShort_ok a (some d)).2 hd
        rw [hr]
        simp only
        rw [if_pos ((c.takesNoValue_iff a _ hr).2 h), (ih b _).2 ⟨items, hg, rfl⟩]
        rfl

theorem stage_short (c : Cmdline) (tok : Str) (l : List Opt) :
    lookahead (if active c.style Style.allowShort && active c.style Style.allowDashForShort then [c.parseShort] else []) [tok] = .ok l ↔
      ((Enabled c Style.allowShort → Enabled c Style.allowDashForShort → ∀ a t, tok = '-' :: a :: t → a = '-') ∧ l = []) ∨
      (∃ a t items, (Enabled c Style.allowShort ∧ Enabled c Style.allowDashForShort) ∧ tok = '-' :: a :: t ∧ a ≠ '-' ∧ Group c tok (a :: t) items ∧
        l = items.map Item.toOpt) := by
  by_cases he : (active c.style Style.allowShort && active c.style Style.allowDashForShort) = true
  · rw [if_pos he, one_eq _ _ _ (.short c)]
    have he' : Enabled c Style.allowShort ∧ Enabled c Style.allowDashForShort := by simpa [Enabled] using he
    simp only [he'.1, he'.2, true_and, forall_const, and_self]
    by_cases hd : ∃ a t, tok = '-' :: a :: t ∧ a ≠ '-'
    · obtain ⟨a, t, rfl, ha⟩ := hd
      rw [parseShort, if_pos (by simp [ha])]
      simp only [substr, List.drop_zero, List.take_succ_cons, List.take_zero, List.drop_succ_cons]
      have key := c.shortLoop_group ('-' :: a :: t) a t l
      constructor
      · rintro ⟨rest, h⟩
        cases hs : c.shortLoop ('-' :: a :: t) ['-', a] t with
        | error f => rw [hs] at h; cases h
        | ok os =>
          rw [hs] at h; cases h
          obtain ⟨items, hg, e⟩ := key.1 hs
          exact .inr ⟨a, t, items, rfl, ha, hg, e⟩
      · rintro (⟨h, _⟩ | ⟨a', t', items, e, _, hg, rfl⟩)
        · exact absurd (h a t rfl) ha
        · cases e
          rw [key.2 ⟨items, hg, rfl⟩]
          exact ⟨_, rfl⟩
    · rw [parseShort, if_neg]
      · constructor
        · rintro ⟨_, h⟩; cases h
          refine .inl ⟨fun a t e => ?_, rfl⟩
          exact Decidable.byContradiction fun h => hd ⟨a, t, e, h⟩
        · rintro (⟨_, rfl⟩ | ⟨a, t, items, e, ha, _⟩)
          · exact ⟨_, rfl⟩
          · exact absurd ⟨a, t, e, ha⟩ hd
      · rintro ⟨h1, h2, h3⟩
        rcases tok with _ | ⟨x, _ | ⟨y, r⟩⟩
        · simp at h1
        · simp at h1
        · simp at h2 h3
          exact hd ⟨y, r, by rw [h2], h3⟩
  · rw [if_neg he]
    have he' : ¬ (Enabled c Style.allowShort ∧ Enabled c Style.allowDashForShort) := by simpa [Enabled] using he
    constructor
    · intro h; cases h
      exact .inl ⟨fun h1 h2 => absurd ⟨h1, h2⟩ he', rfl⟩
    · rintro (⟨_, rfl⟩ | ⟨a, t, items, h, _⟩)
      · rfl
      · exact absurd h he'

theorem stage_slash (c : Cmdline) (tok : Str) (l : List Opt) :
    lookahead (if active c.style Style.allowShort && active c.style Style.allowSlashForShort then [parseDos] else []) [tok] = .ok l ↔
      ((Enabled c Style.allowShort → Enabled c Style.allowSlashForShort → ∀ a t, tok ≠ '/' :: a :: t) ∧ l = []) ∨
      (∃ a t, (Enabled c Style.allowShort ∧ Enabled c Style.allowSlashForShort) ∧ tok = '/' :: a :: t ∧
        l = [(⟨['-', a], if t = [] then [] else [t], [tok]⟩ : Item).toOpt]) := by
  by_cases he : (active c.style Style.allowShort && active c.style Style.allowSlashForShort) = true
  · rw [if_pos he, one_eq _ _ _ .dos]
    have he' : Enabled c Style.allowShort ∧ Enabled c Style.allowSlashForShort := by simpa [Enabled] using he
    simp only [he'.1, he'.2, true_and, forall_const, and_self]
    by_cases hd : ∃ a t, tok = '/' :: a :: t
    · obtain ⟨a, t, rfl⟩ := hd
      rw [parseDos, if_pos (by simp)]
      simp only [substr, List.take_succ_cons, List.take_zero, List.drop_succ_cons, List.drop_zero]
      constructor
      · rintro ⟨rest, h⟩; cases h
        exact .inr ⟨a, t, rfl, rfl⟩
      · rintro (⟨h, _⟩ | ⟨a', t', e, rfl⟩)
        · exact absurd rfl (h a t)
        · cases e
          exact ⟨_, rfl⟩
    · rw [parseDos, if_neg]
      · constructor
        · rintro ⟨_, h⟩; cases h
          exact .inl ⟨fun a t e => hd ⟨a, t, e⟩, rfl⟩
        · rintro (⟨_, rfl⟩ | ⟨a, t, e, _⟩)
          · exact ⟨_, rfl⟩
          · exact absurd ⟨a, t, e⟩ hd
      · rintro ⟨h1, h2⟩
        rcases tok with _ | ⟨x, _ | ⟨y, r⟩⟩
        · simp at h1
        · simp at h1
        · simp at h2
          exact hd ⟨y, r, by rw [h2]⟩
  · rw [if_neg he]
    have he' : ¬ (Enabled c Style.allowShort ∧ Enabled c Style.allowSlashForShort) := by simpa [Enabled] using he
    constructor
    · intro h; cases h
      exact .inl ⟨fun h1 h2 => absurd ⟨h1, h2⟩ he', rfl⟩
    · rintro (⟨_, rfl⟩ | ⟨a, t, h, _⟩)
      · rfl
      · exact absurd h he'

/-! ### A whole token -/

theorem group_ne {c : Cmdline} {tok t : Str} {items : List Item} (h : Group c tok t items) : items ≠ [] := by
  cases h <;> simp

theorem spells_ne {c : Cmdline} {tok : Str} {items : List Item} (h : Spells c tok items) : items ≠ [] := by
  cases h with
  | short _ _ _ _ _ _ _ _ hg => exact group_ne hg
  | _ => simp

/-- A disguised option does not begin with two dashes. -/
theorem disguise_not_long {c : Cmdline} {lead : Char} {rest : Str} (h : Disguise c lead rest) : ¬ ['-', '-'] <+: lead :: rest := by
  rintro ⟨s, e⟩
  simp only [List.cons_append, List.nil_append, List.cons.injEq] at e
  rcases h.2 with ⟨_, h2⟩ | ⟨h1, _⟩
  · rw [← e.2] at h2; simp at h2
  · rw [h1] at e; exact absurd e.1 (by decide)

theorem front_stages (c : Cmdline) (tok : Str) (l : List Opt) : c.front tok = .ok l ↔
    (lookahead (match c.additional with | some f => [parseAdditional f] | none => []) [tok] = .ok l ∧ l ≠ []) ∨
    lookahead (match c.additional with | some f => [parseAdditional f] | none => []) [tok] = .ok [] ∧
    ((lookahead (if active c.style Style.allowLong then [c.parseLong] else []) [tok] = .ok l ∧ l ≠ []) ∨
      lookahead (if active c.style Style.allowLong then [c.parseLong] else []) [tok] = .ok [] ∧
      ((lookahead (if active c.style Style.allowLongDisguise then [c.parseDisguised] else []) [tok] = .ok l ∧ l ≠ []) ∨
        lookahead (if active c.style Style.allowLongDisguise then [c.parseDisguised] else []) [tok] = .ok [] ∧
        ((lookahead (if active c.style Style.allowShort && active c.style Style.allowDashForShort then [c.parseShort] else []) [tok] = .ok l ∧ l ≠ []) ∨
          lookahead (if active c.style Style.allowShort && active c.style Style.allowDashForShort then [c.parseShort] else []) [tok] = .ok [] ∧
          lookahead (if active c.style Style.allowShort && active c.style Style.allowSlashForShort then [parseDos] else []) [tok] = .ok l))) := by
  have htok := c.tokParsers_tok
  unfold front
  unfold tokParsers at htok ⊢
  simp only [List.append_assoc] at htok ⊢
  simp only [List.mem_append] at htok
  rw [lookahead_or _ _ (fun p hp => htok p (.inl hp)), lookahead_or _ _ (fun p hp => htok p (.inr (.inl hp))),
    lookahead_or _ _ (fun p hp => htok p (.inr (.inr (.inl hp)))), lookahead_or _ _ (fun p hp => htok p (.inr (.inr (.inr (.inl hp)))))]
  exact Iff.rfl

/-- The style parsers recognise exactly the tokens of the grammar. -/
theorem front_iff (c : Cmdline) (tok : Str) (l : List Opt) :
    c.front tok = .ok l ↔ (Plain c tok ∧ l = []) ∨ ∃ items, Spells c tok items ∧ l = items.map Item.toOpt := by
  rw [front_stages]
  constructor
  · rintro (⟨h, h0⟩ | ⟨hA, h⟩)
    · rcases (c.stage_additional tok l).1 h with ⟨_, h⟩ | ⟨f, hf, hn, rfl⟩
      · exact absurd h h0
      · exact .inr ⟨_, .additional f hf hn, rfl⟩
    have hu : Unclaimed c tok := by
      rcases (c.stage_additional tok []).1 hA with ⟨h, _⟩ | ⟨f, hf, hn, h⟩
      · exact h
      · cases h
    rcases h with ⟨h, h0⟩ | ⟨hL, h⟩
    · rcases (c.stage_long tok l).1 h with ⟨_, h⟩ | ⟨name, he, ht, hn, hn0, rfl⟩ | ⟨name, v, he, ht, hn, hv, rfl⟩
      · exact absurd h h0
      · exact .inr ⟨_, .long name hu he ht hn hn0, rfl⟩
      · exact .inr ⟨_, .longEq name v hu he ht hn hv, rfl⟩
    have hl : Enabled c Style.allowLong → 3 ≤ tok.length → ¬ ['-', '-'] <+: tok := by
      rcases (c.stage_long tok []).1 hL with ⟨h, _⟩ | ⟨name, _, _, _, _, h⟩ | ⟨name, v, _, _, _, _, h⟩
      · exact h
      · cases h
      · cases h
    rcases h with ⟨h, h0⟩ | ⟨hD, h⟩
    · rcases (c.stage_disguised tok l).1 h with ⟨_, h⟩ | ⟨lead, name, d, he, ht, hd, hn, hden, rfl⟩ | ⟨lead, name, v, d, he, ht, hd, hn, hv, hden, rfl⟩
      · exact absurd h h0
      · exact .inr ⟨_, .disguised lead name d hu he ht hd hn hden, rfl⟩
      · exact .inr ⟨_, .disguisedEq lead name v d hu he ht hd hn hv hden, rfl⟩
    have hd : NotDisguised c tok := by
      rcases (c.stage_disguised tok []).1 hD with ⟨h, _⟩ | ⟨lead, name, d, _, _, _, _, _, h⟩ | ⟨lead, name, v, d, _, _, _, _, _, _, h⟩
      · exact h
      · cases h
      · cases h
    rcases h with ⟨h, h0⟩ | ⟨hS, h⟩
    · rcases (c.stage_short tok l).1 h with ⟨_, h⟩ | ⟨a, t, items, he, ht, ha, hg, rfl⟩
      · exact absurd h h0
      · exact .inr ⟨_, .short a t items hu he ht ha hd hg, rfl⟩
    have hs : Enabled c Style.allowShort → Enabled c Style.allowDashForShort → ∀ a t, tok = '-' :: a :: t → a = '-' := by
      rcases (c.stage_short tok []).1 hS with ⟨h, _⟩ | ⟨a, t, items, _, _, _, hg, h⟩
      · exact h
      · exact absurd (List.map_eq_nil_iff.1 h.symm) (group_ne hg)
    rcases (c.stage_slash tok l).1 h with ⟨hz, rfl⟩ | ⟨a, t, he, ht, rfl⟩
    · exact .inl ⟨⟨hu, hl, hd, hs, hz⟩, rfl⟩
    · exact .inr ⟨_, .slash a t hu he ht hd, rfl⟩
  · rintro (⟨hp, rfl⟩ | ⟨items, hsp, rfl⟩)
    · exact .inr ⟨(c.stage_additional tok []).2 (.inl ⟨hp.unclaimed, rfl⟩), .inr ⟨(c.stage_long tok []).2 (.inl ⟨hp.long, rfl⟩),
        .inr ⟨(c.stage_disguised tok []).2 (.inl ⟨hp.disguised, rfl⟩), .inr ⟨(c.stage_short tok []).2 (.inl ⟨hp.short, rfl⟩),
          (c.stage_slash tok []).2 (.inl ⟨hp.slash, rfl⟩)⟩⟩⟩⟩
    · have noLong : ¬ ['-', '-'] <+: tok → lookahead (if active c.style Style.allowLong then [c.parseLong] else []) [tok] = .ok [] :=
        fun h => (c.stage_long tok []).2 (.inl ⟨fun _ _ => h, rfl⟩)
      cases hsp with
      | additional f hf hn => exact .inl ⟨(c.stage_additional tok _).2 (.inr ⟨f, hf, hn, rfl⟩), by simp⟩
      | long name hu hs ht hn h0 =>
        exact .inr ⟨(c.stage_additional tok []).2 (.inl ⟨hu, rfl⟩), .inl ⟨(c.stage_long tok _).2 (.inr (.inl ⟨name, hs, ht, hn, h0, rfl⟩)), by simp⟩⟩
      | longEq name v hu hs ht hn hv =>
        exact .inr ⟨(c.stage_additional tok []).2 (.inl ⟨hu, rfl⟩), .inl ⟨(c.stage_long tok _).2 (.inr (.inr ⟨name, v, hs, ht, hn, hv, rfl⟩)), by simp⟩⟩
      | disguised lead name d hu hs ht hl hn hd =>
        exact .inr ⟨(c.stage_additional tok []).2 (.inl ⟨hu, rfl⟩), .inr ⟨noLong (by rw [ht]; exact disguise_not_long hl),
          .inl ⟨(c.stage_disguised tok _).2 (.inr (.inl ⟨lead, name, d, hs, ht, hl, hn, hd, rfl⟩)), by simp⟩⟩⟩
      | disguisedEq lead name v d hu hs ht hl hn hv hd =>
        exact .inr ⟨(c.stage_additional tok []).2 (.inl ⟨hu, rfl⟩), .inr ⟨noLong (by rw [ht]; exact disguise_not_long hl),
          .inl ⟨(c.stage_disguised tok _).2 (.inr (.inr ⟨lead, name, v, d, hs, ht, hl, hn, hv, hd, rfl⟩)), by simp⟩⟩⟩
      | short a t items hu hs ht ha hd hg =>
        refine .inr ⟨(c.stage_additional tok []).2 (.inl ⟨hu, rfl⟩), .inr ⟨noLong ?_, .inr ⟨(c.stage_disguised tok []).2 (.inl ⟨hd, rfl⟩),
          .inl ⟨(c.stage_short tok _).2 (.inr ⟨a, t, items, hs, ht, ha, hg, rfl⟩), by simpa using group_ne hg⟩⟩⟩⟩
        rw [ht]; simp [Ne.symm ha]
      | slash a t hu hs ht hd =>
        refine .inr ⟨(c.stage_additional tok []).2 (.inl ⟨hu, rfl⟩), .inr ⟨noLong ?_, .inr ⟨(c.stage_disguised tok []).2 (.inl ⟨hd, rfl⟩),
          .inr ⟨(c.stage_short tok []).2 (.inl ⟨fun _ _ a' t' e => absurd (ht.symm.trans e) (by simp), rfl⟩), (c.stage_slash tok _).2 (.inr ⟨a, t, hs, ht, rfl⟩)⟩⟩⟩⟩
        rw [ht]; simp

theorem front_plain (c : Cmdline) (tok : Str) : c.front tok = .ok [] ↔ Plain c tok := by
  rw [front_iff]
  constructor
  · rintro (⟨h, _⟩ | ⟨items, h, e⟩)
    · exact h
    · exact absurd (List.map_eq_nil_iff.1 e.symm) (spells_ne h)
  · exact fun h => .inl ⟨h, rfl⟩

theorem front_spells (c : Cmdline) (tok : Str) (l : List Opt) (hl : l ≠ []) :
    c.front tok = .ok l ↔ ∃ items, Spells c tok items ∧ l = items.map Item.toOpt := by
  rw [front_iff]
  constructor
  · rintro (⟨_, h⟩ | h)
    · exact absurd h hl
    · exact h
  · exact .inr

theorem front_dashes_iff (c : Cmdline) : c.front ['-', '-'] = .ok [] ↔ Unclaimed c ['-', '-'] := by
  rw [front_plain]
  refine ⟨Plain.unclaimed, fun h => ⟨h, by simp, ?_, by simp, by simp⟩⟩
  rintro _ lead rest e hd
  cases e
  rcases hd.2 with ⟨_, h⟩ | ⟨h, _⟩
  · simp at h
  · exact absurd h (by decide)

/-! ### Completing an option -/

theorem takeable_iff (c : Cmdline) (v : Str) : Takeable c v ↔ c.front v = .ok [] ∨ (∃ o os, c.front v = .ok (o :: os)) ∧ c.lookup v = .ok none := by
  unfold Takeable
  rw [← front_plain, ← lookup_unknown]
  constructor
  · rintro (h | ⟨⟨items, h⟩, hu⟩)
    · exact .inl h
    · cases items with
      | nil => exact absurd rfl (spells_ne h)
      | cons i is => exact .inr ⟨⟨_, _, (c.front_iff v _).2 (.inr ⟨i :: is, h, rfl⟩)⟩, hu⟩
  · rintro (h | ⟨⟨o, os, h⟩, hu⟩)
    · exact .inl h
    · obtain ⟨items, h, _⟩ := (c.front_spells v _ (by simp)).1 h
      exact .inr ⟨⟨items, h⟩, hu⟩

theorem grab_iff (c : Cmdline) (hs : c.styleParser = none) (n : Nat) (other : List Str) (opt : Opt) (orig : Str) (hn : n ≤ other.length)
    (o' : Opt) (rest : List Str) :
    c.grab c.parsers n other opt orig = .ok (o', rest) ↔
      ∃ taken, other = taken ++ rest ∧ taken.length = n ∧ (∀ v ∈ taken, Takeable c v) ∧
        o' = { opt with value := opt.value ++ taken, originalTokens := opt.originalTokens ++ taken } := by
  induction n generalizing other opt orig with
  | zero =>
    rw [grab]
    constructor
    · intro h; cases h
      exact ⟨[], rfl, rfl, by simp, by simp⟩
    · rintro ⟨taken, rfl, h, _, rfl⟩
      rw [List.length_eq_zero_iff.1 h]
      simp
  | succ n ih =>
    cases other with
    | nil => simp at hn
    | cons t ts =>
      have hn' : n ≤ ts.length := by simpa using hn
      have key : ∀ orig', Takeable c t → (c.grab c.parsers n ts { opt with value := opt.value ++ [t], originalTokens := opt.originalTokens ++ [t] } orig' = .ok (o', rest) ↔
          ∃ taken, t :: ts = taken ++ rest ∧ taken.length = n + 1 ∧ (∀ v ∈ taken, Takeable c v) ∧
            o' = { opt with value := opt.value ++ taken, originalTokens := opt.originalTokens ++ taken }) := by
        intro orig' htk
        rw [ih ts _ orig' hn']
        constructor
        · rintro ⟨taken, rfl, hl, ht, rfl⟩
          refine ⟨t :: taken, rfl, by simp [hl], ?_, by simp⟩
          intro v hv
          rcases List.mem_cons.1 hv with rfl | hv
          · exact htk
          · exact ht v hv
        · rintro ⟨taken, e, hl, ht, rfl⟩
          cases taken with
          | nil => simp at hl
          | cons x taken =>
            simp only [List.cons_append, List.cons.injEq] at e
            obtain ⟨rfl, rfl⟩ := e
            exact ⟨taken, rfl, by simpa using hl, fun v hv => ht v (by simp [hv]), by simp⟩
      have hno : ¬ Takeable c t → ¬ ∃ taken, t :: ts = taken ++ rest ∧ taken.length = n + 1 ∧ (∀ v ∈ taken, Takeable c v) ∧
            o' = { opt with value := opt.value ++ taken, originalTokens := opt.originalTokens ++ taken } := by
        rintro h ⟨taken, e, hl, ht, _⟩
        cases taken with
        | nil => simp at hl
        | cons x taken =>
          simp only [List.cons_append, List.cons.injEq] at e
          exact h (e.1 ▸ ht x (by simp))
      rw [grab, c.lookahead_front hs]
      cases hf : c.front t with
      | error f =>
        refine ⟨nofun, fun h => absurd h (hno ?_)⟩
        rw [takeable_iff, hf]; simp
      | ok l =>
        cases l with
        | nil => exact key _ ((c.takeable_iff t).2 (.inl hf))
        | cons o os =>
          simp only
          cases hl : c.lookup t with
          | error f =>
            refine ⟨nofun, fun h => absurd h (hno ?_)⟩
            rw [takeable_iff, hf, hl]; simp
          | ok d =>
            cases d with
            | none => exact key _ ((c.takeable_iff t).2 (.inr ⟨⟨o, os, hf⟩, hl⟩))
            | some d =>
              refine ⟨nofun, fun h => absurd h (hno ?_)⟩
              rw [takeable_iff, hf, hl]; simp

theorem finishOption_iff (c : Cmdline) (hs : c.styleParser = none) (i : Item) (other : List Str) (o' : Opt) (rest : List Str) :
    c.finishOption c.parsers i.toOpt other = .ok (o', rest) ↔ ∃ taken, other = taken ++ rest ∧ Completes c i taken o' := by
  unfold finishOption
  have hk : i.toOpt.stringKey = i.name := rfl
  have hv : i.toOpt.value = i.value := rfl
  rw [hk]
  by_cases h0 : i.name = []
  · rw [if_pos h0]
    constructor
    · intro h; cases h
      refine ⟨[], rfl, ?_⟩
      have : i.toOpt = { value := i.value, originalTokens := i.tokens } := by simp [Item.toOpt, h0]
      rw [this]
      exact .nameless h0
    · rintro ⟨taken, rfl, hc⟩
      cases hc with
      | nameless h => simp [Item.toOpt, h0]
      | unknown h => exact absurd h0 h
      | known _ _ h => exact absurd h0 h
  · rw [if_neg h0]
    dsimp only
    cases hl : c.lookup i.name with
    | error f =>
      refine ⟨nofun, ?_⟩
      rintro ⟨taken, rfl, hc⟩
      cases hc with
      | nameless h => exact absurd h h0
      | unknown h hn => rw [lookup_unknown.2 hn] at hl; cases hl
      | known d _ h hd => rw [lookup_denotes.2 hd] at hl; cases hl
    | ok d =>
      cases d with
      | none =>
        dsimp only
        have hn := lookup_unknown.1 hl
        by_cases hu : c.allowUnregistered = true
        · rw [if_pos hu]
          constructor
          · intro h; cases h
            exact ⟨[], rfl, .unknown h0 hn hu⟩
          · rintro ⟨taken, rfl, hc⟩
            cases hc with
            | nameless h => exact absurd h h0
            | unknown h => rfl
            | known d _ h hd => rw [lookup_denotes.2 hd] at hl; cases hl
        · rw [if_neg hu]
          refine ⟨nofun, ?_⟩
          rintro ⟨taken, rfl, hc⟩
          cases hc with
          | nameless h => exact absurd h h0
          | unknown _ _ h => exact absurd h hu
          | known d _ h hd => rw [lookup_denotes.2 hd] at hl; cases hl
      | some d =>
        dsimp only
        have hd := lookup_denotes.1 hl
        rw [hv]
        have hback : ∀ taken, Completes c i taken o' → taken.length = d.semantic.minTokens - i.value.length ∧ (∀ v ∈ taken, Takeable c v) ∧
            (d.semantic.maxTokens = 0 → i.value = []) ∧
            o' = { stringKey := reportedKey d i.name, value := i.value ++ taken, originalTokens := i.tokens ++ taken } := by
          intro taken hc
          cases hc with
          | nameless h => exact absurd h h0
          | unknown h hn => rw [lookup_unknown.2 hn] at hl; cases hl
          | known d' _ h hd' hlen ht hsw =>
            rw [lookup_denotes.2 hd'] at hl
            cases hl
            exact ⟨hlen, ht, hsw, rfl⟩
        by_cases hm : i.value.length + other.length ≥ d.semantic.minTokens
        · rw [if_pos hm]
          by_cases hx : i.value ≠ [] ∧ d.semantic.maxTokens = 0
          · rw [if_pos hx]
            refine ⟨nofun, ?_⟩
            rintro ⟨taken, rfl, hc⟩
            exact absurd ((hback taken hc).2.2.1 hx.2) hx.1
          · rw [if_neg hx, c.grab_iff hs _ _ _ _ (by omega), key_eq]
            constructor
            · rintro ⟨taken, rfl, hlen, ht, rfl⟩
              refine ⟨taken, rfl, .known d taken h0 hd hlen ht ?_⟩
              intro h
              exact Decidable.byContradiction fun hne => hx ⟨hne, h⟩
            · rintro ⟨taken, rfl, hc⟩
              obtain ⟨h1, h2, _, h4⟩ := hback taken hc
              exact ⟨taken, rfl, h1, h2, h4⟩
        · rw [if_neg hm]
          refine ⟨nofun, ?_⟩
          rintro ⟨taken, rfl, hc⟩
          have := (hback taken hc).1
          simp only [List.length_append] at hm
          omega

theorem finishAll_iff (c : Cmdline) (hs : c.styleParser = none) (is : List Item) (h0 : is ≠ []) (args : List Str) (os : List Opt) (rest : List Str) :
    c.finishAll c.parsers (is.map Item.toOpt) args = .ok (os, rest) ↔ ∃ taken, args = taken ++ rest ∧ CompletesAll c is taken os := by
  induction is generalizing os with
  | nil => exact absurd rfl h0
  | cons i is ih =>
    cases is with
    | nil =>
      simp only [List.map_cons, List.map_nil]
      rw [finishAll]
      have key := fun o' rest => c.finishOption_iff hs i args o' rest
      constructor
      · intro h
        cases hf : c.finishOption c.parsers i.toOpt args with
        | error f => rw [hf] at h; cases h
        | ok r =>
          obtain ⟨o, a⟩ := r
          rw [hf] at h; cases h
          obtain ⟨taken, e, hc⟩ := (key _ _).1 hf
          exact ⟨taken, e, .one hc⟩
      · rintro ⟨taken, e, hc⟩
        cases hc with
        | one h => rw [(key _ _).2 ⟨taken, e, h⟩]
        | cons h t => cases t
    | cons i2 is =>
      simp only [List.map_cons]
      rw [finishAll.eq_3 _ _ _ _ _ (by simp)]
      have key := fun o' rest => c.finishOption_iff hs i [] o' rest
      have ih := ih (by simp)
      simp only [List.map_cons] at ih
      constructor
      · intro h
        cases hf : c.finishOption c.parsers i.toOpt [] with
        | error f => rw [hf] at h; cases h
        | ok r =>
          obtain ⟨o, a⟩ := r
          rw [hf] at h
          dsimp only at h
          cases hg : c.finishAll c.parsers (i2.toOpt :: is.map Item.toOpt) args with
          | error f => rw [hg] at h; cases h
          | ok r =>
            obtain ⟨os', a'⟩ := r
            rw [hg] at h; cases h
            obtain ⟨taken, e, hc⟩ := (key _ _).1 hf
            obtain ⟨taken', e', hc'⟩ := (ih _).1 hg
            have := List.append_eq_nil_iff.1 e.symm
            rw [this.1] at hc
            exact ⟨taken', e', .cons hc hc'⟩
      · rintro ⟨taken, e, hc⟩
        cases hc with
        | cons h t =>
          rw [(key _ []).2 ⟨[], rfl, h⟩]
          dsimp only
          rw [(ih _).2 ⟨taken, e, t⟩]

/-! ### The first pass -/

theorem completesAll_ne {c : Cmdline} {is : List Item} {taken : List Str} {os : List Opt} (h : CompletesAll c is taken os) : is ≠ [] := by
  cases h <;> simp

theorem pass_reads (c : Cmdline) (hs : c.styleParser = none) (args : List Str) (os : List Opt) : Pass c args os ↔ Reads c args os := by
  constructor
  · intro h
    induction h with
    | nil => exact .nil
    | plain hf hd _ ih => exact .plain ((c.front_plain _).1 hf) hd ih
    | dashes hf => exact .terminator (c.front_dashes_iff.1 hf)
    | option hf hl h _ ih =>
      obtain ⟨items, hsp, rfl⟩ := (c.front_spells _ _ hl).1 hf
      obtain ⟨taken, rfl, hc⟩ := (c.finishAll_iff hs items (spells_ne hsp) _ _ _).1 h
      exact .option hsp hc ih
  · intro h
    induction h with
    | nil => exact .nil
    | plain hf hd _ ih => exact .plain ((c.front_plain _).2 hf) hd ih
    | terminator hf => exact .dashes (c.front_dashes_iff.2 hf)
    | option hsp hc _ ih =>
      exact .option ((c.front_iff _ _).2 (.inr ⟨_, hsp, rfl⟩)) (by simpa using spells_ne hsp)
        ((c.finishAll_iff hs _ (spells_ne hsp) _ _ _).2 ⟨_, rfl, hc⟩) ih

/-! ### The second pass -/

theorem absorb_take (lim : Option Nat) (o : Opt) (ps os : List Opt) (hp : ∀ p ∈ ps, Loose p)
    (hm : lim = some ps.length ∨ (∀ n, lim = some n → ps.length < n) ∧ ∀ p, os.head? = some p → ¬ Spec.Loose p) :
    absorb lim o (ps ++ os) = .ok (with_ o ps, ps.length) := by
  induction ps generalizing lim o with
  | nil =>
    rw [List.nil_append, with_nil]
    cases os with
    | nil => rw [absorb]; rfl
    | cons q os =>
      rw [absorb]
      rcases hm with hm | ⟨hm, hq⟩
      · rw [if_pos (show lim = some 0 from hm)]; rfl
      · rw [if_neg (by intro h; exact absurd (hm 0 h) (by simp))]
        have := hq q rfl
        unfold Spec.Loose at this
        by_cases hk : q.stringKey = []
        · rw [if_neg (by simpa using hk), if_pos (by exact Decidable.byContradiction fun h => this ⟨hk, h⟩)]
          rfl
        · rw [if_pos hk]; rfl
  | cons p ps ih =>
    obtain ⟨h1, h2, h3, h4⟩ := hp p (by simp)
    obtain ⟨v, hv⟩ := List.length_eq_one_iff.1 h3
    obtain ⟨t, ht⟩ := List.length_eq_one_iff.1 h4
    rw [List.cons_append, absorb]
    rw [if_neg, if_neg (by simpa using h1), if_neg h2, hv, ht]
    · dsimp only
      rw [ih]
      · simp [with_, hv, ht]
      · exact fun q hq => hp q (by simp [hq])
      · rcases hm with hm | ⟨hm, hq⟩
        · left; rw [hm]; simp
        · right
          refine ⟨fun n hn => ?_, hq⟩
          cases lim with
          | none => simp at hn
          | some m =>
            have := hm m rfl
            simp at hn this
            omega
    · intro h
      rcases hm with hm | ⟨hm, _⟩
      · rw [h] at hm; simp at hm
      · have := hm 0 h; simp at this

/-- Positional arguments have one value and one token. -/
def Singles (os : List Opt) : Prop := ∀ o ∈ os, o.stringKey = [] → o.value.length = 1 ∧ o.originalTokens.length = 1

theorem unnamed_length_append (ps os : List Opt) (hp : ∀ p ∈ ps, p.stringKey = []) : (unnamed (ps ++ os)).length = ps.length + (unnamed os).length := by
  unfold unnamed
  rw [List.filter_append, List.length_append, List.filter_eq_self.2 (by simpa using hp)]

theorem gathers_regroup {c : Cmdline} {os os' : List Opt} (h : Gathers c os os') (hs : Singles os) (hlen : (unnamed os).length < 2147483648) :
    c.regroup 0 os = .ok os' := by
  induction h with
  | nil => rw [regroup]
  | @positional o os os' h t ih =>
    rw [regroup]
    dsimp only
    rw [if_pos h, ih (fun q hq => hs q (by simp [hq])) (by rw [unnamed_cons_nil h] at hlen; simp at hlen; omega)]
  | @keep o os os' h hr t ih =>
    rw [regroup]
    dsimp only
    have ih := ih (fun q hq => hs q (by simp [hq])) (by rw [unnamed_cons_ne h] at hlen; exact hlen)
    rw [if_neg h]
    rcases hr with hr | ⟨d, hd, hr⟩
    · rw [lookup_unknown.2 hr]
      dsimp only
      rw [ih]
    · rw [lookup_denotes.2 hd]
      dsimp only
      rw [if_neg (show ¬ (d.semantic.minTokens < d.semantic.maxTokens ∧ o.value.length < d.semantic.maxTokens) from hr), ih]
  | @take o ps os os' d h hd hr hp hmax t ih =>
    rw [regroup]
    dsimp only
    rw [unnamed_cons_ne h, unnamed_length_append _ _ (fun p hpp => (hp p hpp).1)] at hlen
    have ih := ih (fun q hq => hs q (by simp [hq])) (by omega)
    rw [if_neg h, lookup_denotes.2 hd]
    dsimp only
    rw [if_pos (show d.semantic.minTokens < d.semantic.maxTokens ∧ o.value.length < d.semantic.maxTokens from hr), absorb_take _ o ps os]
    · dsimp only
      rw [regroup_drop, List.drop_left, ih]
      rfl
    · intro p hpp
      have := hs p (by simp [hpp]) (hp p hpp).1
      exact ⟨(hp p hpp).1, (hp p hpp).2, this⟩
    · unfold takeLimit
      rcases hmax with hm | ⟨hm, hq⟩
      · left
        rw [if_pos (by omega)]
        congr 1
        omega
      · right
        refine ⟨fun n hn => ?_, hq⟩
        split at hn
        · cases hn; omega
        · cases hn

theorem regroup_gathers (c : Cmdline) (os os' : List Opt) (hlen : (unnamed os).length < 2147483648) (h : c.regroup 0 os = .ok os') :
    Gathers c os os' := by
  suffices hs : ∀ n os os', os.length ≤ n → (unnamed os).length < 2147483648 → c.regroup 0 os = .ok os' → Gathers c os os' from
    hs _ _ _ (Nat.le_refl _) hlen h
  clear h hlen os os'
  intro n
  induction n with
  | zero =>
    intro os os' hl _ h
    cases os with
    | nil => rw [regroup] at h; cases h; exact .nil
    | cons o os => simp at hl
  | succ n ih =>
    intro os os' hl hlen h
    cases os with
    | nil => rw [regroup] at h; cases h; exact .nil
    | cons o os =>
      simp only [List.length_cons] at hl
      rw [regroup] at h
      dsimp only at h
      by_cases hk : o.stringKey = []
      · rw [if_pos hk] at h
        rw [unnamed_cons_nil hk] at hlen
        split at h
        · cases h
        · rename_i hr; cases h
          exact .positional hk (ih _ _ (by omega) (by simp at hlen; omega) hr)
      · rw [if_neg hk] at h
        rw [unnamed_cons_ne hk] at hlen
        split at h
        · split at h <;> cases h
        · cases h
        · rename_i hu
          split at h
          · cases h
          · rename_i hr; cases h
            exact .keep hk (.inl (lookup_unknown.1 hu)) (ih _ _ (by omega) hlen hr)
        · rename_i d hd
          have hd := lookup_denotes.1 hd
          by_cases hm : d.semantic.minTokens < d.semantic.maxTokens ∧ o.value.length < d.semantic.maxTokens
          · rw [if_pos hm] at h
            split at h
            · cases h
            · rename_i o' k ha
              obtain ⟨h1, h2, h3, h4, h5⟩ := absorb_spec _ _ _ _ _ ha
              rw [regroup_drop] at h
              have hcount : (unnamed os).length = k + (unnamed (os.drop k)).length := by
                have := unnamed_length_append (os.take k) (os.drop k) (fun p hp => (h3 p hp).1)
                rw [List.take_append_drop, List.length_take, Nat.min_eq_left h1] at this
                exact this
              split at h
              · cases h
              · rename_i os1 hr
                cases h
                have := ih (os.drop k) os1 (by simp; omega) (by omega) hr
                rw [h2]
                have hgoal := Gathers.take (ps := os.take k) d hk hd hm (fun p hp => ⟨(h3 p hp).1, (h3 p hp).2.1⟩) ?_ this
                · rw [List.take_append_drop] at hgoal
                  exact hgoal
                · have hlk : (os.take k).length = k := by simp; omega
                  rw [hlk]
                  unfold takeLimit at h4 h5
                  split at h4
                  · rename_i hlt
                    have h4 := h4 _ rfl
                    rw [if_pos hlt] at h5
                    by_cases he : k = d.semantic.maxTokens - o.value.length
                    · left; omega
                    · right
                      refine ⟨by omega, fun p hp hloose => ?_⟩
                      have := h5 p hp hloose.1 hloose.2
                      cases this
                      exact he rfl
                  · rename_i hlt
                    rw [if_neg hlt] at h5
                    right
                    refine ⟨by omega, fun p hp hloose => ?_⟩
                    have := h5 p hp hloose.1 hloose.2
                    cases this
          · rw [if_neg hm] at h
            split at h
            · cases h
            · rename_i hr; cases h
              exact .keep hk (.inr ⟨d, hd, hm⟩) (ih _ _ (by omega) hlen hr)

/-! ### Numbering -/

theorem posName_iff (p : Positional) (n : Nat) (name : Str) :
    (p.names[n]? = some name ∨ p.names.length ≤ n ∧ p.trailing ≠ [] ∧ name = p.trailing) ↔ p.full n = false ∧ name = posName p n := by
  unfold Positional.full Positional.maxTotalCount posName Positional.nameForPosition
  cases hn : p.names[n]? with
  | some x =>
    have := (List.getElem?_eq_some_iff.1 hn).1
    constructor
    · rintro (h | ⟨h, _⟩)
      · cases h
        refine ⟨?_, rfl⟩
        split
        · rename_i m hm
          split at hm
          · cases hm; simpa using this
          · cases hm
        · rfl
      · omega
    · rintro ⟨_, rfl⟩; exact .inl rfl
  | none =>
    have := List.getElem?_eq_none_iff.1 hn
    by_cases ht : p.trailing = []
    · simp [ht, this]
    · simp only [if_neg ht]
      constructor
      · rintro (h | ⟨_, _, rfl⟩)
        · cases h
        · exact ⟨trivial, rfl⟩
      · rintro ⟨_, rfl⟩; exact .inr ⟨this, ht, rfl⟩

theorem setCase_eq (c : Cmdline) (o : Opt) : c.setCase o = { o with caseInsensitive := caseFlag c o.stringKey } := by
  unfold setCase caseFlag
  have : (o.stringKey.length > 2 ∨ (o.stringKey.length > 1 ∧ o.stringKey[0]? ≠ some '-')) ↔
      (2 < o.stringKey.length ∨ o.stringKey.length = 2 ∧ o.stringKey.head? ≠ some '-') := by
    rw [List.head?_eq_getElem?]
    constructor
    · rintro (h | ⟨h, h'⟩)
      · exact .inl h
      · by_cases h2 : 2 < o.stringKey.length
        · exact .inl h2
        · exact .inr ⟨by omega, h'⟩
    · rintro (h | ⟨h, h'⟩)
      · exact .inl h
      · exact .inr ⟨by omega, h'⟩
  by_cases h : o.stringKey.length > 2 ∨ (o.stringKey.length > 1 ∧ o.stringKey[0]? ≠ some '-')
  · rw [if_pos h, if_pos (this.1 h)]
  · rw [if_neg h, if_neg (fun h' => h (this.2 h'))]

theorem labels_none (c : Cmdline) (hc : c.positional = none) (n : Nat) (os res : List Opt) :
    Labels c n os res ↔ res = (number (fun _ => []) n os).map c.setCase := by
  induction os generalizing n res with
  | nil =>
    constructor
    · intro h; cases h; rfl
    · rintro rfl; exact .nil
  | cons o os ih =>
    by_cases hk : o.stringKey = []
    · rw [number, if_pos hk, List.map_cons, setCase_eq]
      constructor
      · intro h
        cases h with
        | named h => exact absurd hk h
        | positional name _ hn t =>
          rw [hc] at hn
          rw [(ih _ _).1 t, hn]
      · rintro rfl
        exact .positional [] hk (by rw [hc]) ((ih _ _).2 rfl)
    · rw [number, if_neg hk, List.map_cons, setCase_eq]
      constructor
      · intro h
        cases h with
        | named _ t => rw [(ih _ _).1 t]
        | positional _ h => exact absurd h hk
      · rintro rfl
        exact .named hk ((ih _ _).2 rfl)

theorem labels_some (c : Cmdline) (p : Positional) (hc : c.positional = some p) (n : Nat) (os res : List Opt) :
    Labels c n os res ↔ (unnamed os = [] ∨ p.full (n + (unnamed os).length - 1) = false) ∧ res = (number (posName p) n os).map c.setCase := by
  induction os generalizing n res with
  | nil =>
    constructor
    · intro h; cases h; exact ⟨.inl rfl, rfl⟩
    · rintro ⟨_, rfl⟩; exact .nil
  | cons o os ih =>
    by_cases hk : o.stringKey = []
    · rw [number, if_pos hk, List.map_cons, setCase_eq, unnamed_cons_nil hk]
      simp only [reduceCtorEq, false_or, List.length_cons]
      have hmono : p.full (n + ((unnamed os).length + 1) - 1) = false → p.full n = false := by
        intro h
        cases hn : p.full n with
        | false => rfl
        | true => rw [full_mono p (show n ≤ n + ((unnamed os).length + 1) - 1 by omega) hn] at h; cases h
      constructor
      · intro h
        cases h with
        | named h => exact absurd hk h
        | positional name _ hn t =>
          rw [hc] at hn
          obtain ⟨h1, rfl⟩ := (posName_iff p n name).1 hn
          obtain ⟨h2, rfl⟩ := (ih _ _).1 t
          refine ⟨?_, rfl⟩
          rcases h2 with h2 | h2
          · rw [h2]; simpa using h1
          · rw [← h2]; congr 1; omega
      · rintro ⟨h, rfl⟩
        refine .positional (posName p n) hk (by rw [hc]; exact (posName_iff p n _).2 ⟨hmono h, rfl⟩) ((ih _ _).2 ⟨?_, rfl⟩)
        by_cases h0 : unnamed os = []
        · exact .inl h0
        · right; rw [← h]; congr 1; omega
    · rw [number, if_neg hk, List.map_cons, setCase_eq, unnamed_cons_ne hk]
      constructor
      · intro h
        cases h with
        | named _ t =>
          obtain ⟨h2, rfl⟩ := (ih _ _).1 t
          exact ⟨h2, rfl⟩
        | positional _ h => exact absurd h hk
      · rintro ⟨h, rfl⟩
        exact .named hk ((ih _ _).2 ⟨h, rfl⟩)

/-! ### The whole -/

theorem denotes_mem {c : Cmdline} {name : Str} {d : OptionDesc} (h : Denotes c name d) : d ∈ c.desc := by
  unfold Denotes at h
  rcases h with h | ⟨_, h⟩
  · have : d ∈ exacts c.desc name (active c.style Style.longCaseInsensitive) (active c.style Style.shortCaseInsensitive) := by rw [h]; simp
    exact (List.mem_filter.1 this).1
  · have : d ∈ approximates c.desc name (active c.style Style.allowGuessing) (active c.style Style.longCaseInsensitive) (active c.style Style.shortCaseInsensitive) := by rw [h]; simp
    exact (List.mem_filter.1 this).1

/-- No option is reported under the empty name. -/
def KeysNonempty (c : Cmdline) : Prop := ∀ d ∈ c.desc, ∀ name, name ≠ [] → reportedKey d name ≠ []

theorem completes_unnamed {c : Cmdline} (hne : KeysNonempty c) {i : Item} {taken : List Str} {o : Opt} (h : Completes c i taken o) :
    o.stringKey = [] ↔ i.name = [] := by
  cases h with
  | nameless h => simp [h]
  | unknown h => simp
  | known d _ h hd => simp [h, hne d (denotes_mem hd) _ h]

theorem group_named {c : Cmdline} {tok t : Str} {items : List Item} (h : Group c tok t items) : ∀ i ∈ items, i.name ≠ [] := by
  induction h with
  | last => simp
  | value => simp
  | switch _ _ _ _ _ _ ih => simpa using ih

theorem completesAll_mem {c : Cmdline} {is : List Item} {taken : List Str} {os : List Opt} (h : CompletesAll c is taken os) :
    ∀ o ∈ os, ∃ i ∈ is, ∃ taken', Completes c i taken' o := by
  induction h with
  | one h => rintro o ho; rw [List.mem_singleton.1 ho]; exact ⟨_, by simp, _, h⟩
  | cons h _ ih =>
    rintro o ho
    rcases List.mem_cons.1 ho with rfl | ho
    · exact ⟨_, by simp, _, h⟩
    · obtain ⟨i, hi, t, hc⟩ := ih o ho
      exact ⟨i, by simp [hi], t, hc⟩

theorem completesAll_length {c : Cmdline} {is : List Item} {taken : List Str} {os : List Opt} (h : CompletesAll c is taken os) :
    os.length = is.length := by
  induction h with
  | one => rfl
  | cons _ _ ih => simp [ih]

/-- A token writes no nameless option, or just that one, with its value. -/
theorem spells_unnamed {c : Cmdline} {tok : Str} {items : List Item} (h : Spells c tok items) :
    (∀ i ∈ items, i.name ≠ []) ∨ items.length = 1 ∧ ∀ i ∈ items, i.value.length = 1 ∧ i.tokens.length = 1 := by
  cases h with
  | additional f hf hn => exact .inl (by simpa using hn)
  | long name _ _ _ _ h0 => exact .inl (by simpa using h0)
  | longEq => exact .inr ⟨rfl, by simp⟩
  | disguised lead name d hu hs ht hl hn hd => exact .inl (by simpa using hl.1)
  | disguisedEq => exact .inr ⟨rfl, by simp⟩
  | short _ _ _ _ _ _ _ _ hg => exact .inl (group_named hg)
  | slash => exact .inl (by simp)

theorem reads_singles {c : Cmdline} (hne : KeysNonempty c) {args : List Str} {os : List Opt} (h : Reads c args os) :
    Singles os ∧ (unnamed os).length ≤ args.length := by
  induction h with
  | nil => exact ⟨fun o ho => by simp at ho, by simp [unnamed]⟩
  | plain _ _ _ ih =>
    refine ⟨fun o ho hk => ?_, ?_⟩
    · rcases List.mem_cons.1 ho with rfl | ho
      · exact ⟨rfl, rfl⟩
      · exact ih.1 o ho hk
    · rw [unnamed_cons_nil rfl]; simpa using ih.2
  | @terminator rest _ =>
    refine ⟨fun o ho hk => ?_, ?_⟩
    · obtain ⟨t, _, rfl⟩ := List.mem_map.1 ho
      exact ⟨rfl, rfl⟩
    · have : (unnamed (rest.map fun t => ({ value := [t], originalTokens := [t], positionKey := intMax } : Opt))).length ≤ rest.length := by
        exact Nat.le_trans (List.length_filter_le _ _) (by simp)
      simp only [List.length_cons]; omega
  | @option tok items taken os rest more hsp hc _ ih =>
    have hun : Singles os ∧ (unnamed os).length ≤ 1 := by
      rcases spells_unnamed hsp with h | ⟨h1, h2⟩
      · have : ∀ o ∈ os, o.stringKey ≠ [] := by
          intro o ho hk
          obtain ⟨i, hi, t, hc⟩ := completesAll_mem hc o ho
          exact h i hi ((completes_unnamed hne hc).1 hk)
        refine ⟨fun o ho hk => absurd hk (this o ho), ?_⟩
        have : unnamed os = [] := by
          unfold unnamed
          simpa [List.filter_eq_nil_iff] using this
        simp [this]
      · refine ⟨fun o ho hk => ?_, ?_⟩
        · obtain ⟨i, hi, t, hc⟩ := completesAll_mem hc o ho
          have hi0 := (completes_unnamed hne hc).1 hk
          cases hc with
          | nameless => exact h2 i hi
          | unknown h => exact absurd hi0 h
          | known _ _ h => exact absurd hi0 h
        · refine Nat.le_trans (List.length_filter_le _ _) ?_
          rw [completesAll_length hc, h1]
          exact Nat.le_refl _
    refine ⟨fun o ho hk => ?_, ?_⟩
    · rcases List.mem_append.1 ho with ho | ho
      · exact hun.1 o ho hk
      · exact ih.1 o ho hk
    · have : unnamed (os ++ more) = unnamed os ++ unnamed more := by simp [unnamed]
      rw [this]
      simp only [List.length_append, List.length_cons]
      omega

/-- A parse succeeds with a result exactly if the grammar derives it. -/
theorem run_grammar (c : Cmdline) (hs : c.styleParser = none) (hne : KeysNonempty c) (args : List Str) (hlen : args.length < 2147483648)
    (res : List Opt) : c.run args = .ok res ↔ ∃ os os', Reads c args os ∧ Gathers c os os' ∧ Labels c 0 os' res := by
  rw [c.run_pass hs]
  simp only [c.pass_reads hs]
  have key : ∀ os os', Reads c args os → c.regroup 0 os = .ok os' → (c.finalize os = .ok res ↔ Labels c 0 os' res) := by
    intro os os' hr hrg
    have hp := (c.pass_reads hs args os).2 hr
    have hw : ∀ o ∈ os', o.stringKey ≠ [] → o.positionKey = -1 := by
      intro o ho hk
      obtain ⟨o1, ho1, ps, _, rfl, _⟩ := (c.regroup_regrouped _ _ hrg).mem o ho
      exact (hp.made o1 ho1).position hk
    rw [c.finalize_eq _ _ hrg hw]
    cases hpos : c.positional with
    | none =>
      rw [labels_none c hpos]
      constructor
      · intro h; cases h; rfl
      · rintro rfl; rfl
    | some p =>
      dsimp only
      rw [labels_some c p hpos]
      have htm : tooMany p (unnamed os').length = true ↔ ¬ (unnamed os' = [] ∨ p.full (0 + (unnamed os').length - 1) = false) := by
        rw [tooMany_iff]
        simp
      by_cases ht : tooMany p (unnamed os').length = true
      · rw [if_pos ht]
        exact ⟨nofun, fun h => absurd h.1 (htm.1 ht)⟩
      · rw [if_neg ht]
        constructor
        · intro h; cases h
          exact ⟨Decidable.byContradiction fun h => ht (htm.2 h), rfl⟩
        · rintro ⟨_, rfl⟩; rfl
  constructor
  · rintro ⟨os, hr, hf⟩
    obtain ⟨os', hrg⟩ := c.finalize_regroup _ _ hf
    have := reads_singles hne hr
    exact ⟨os, os', hr, c.regroup_gathers _ _ (by omega) hrg, (key os os' hr hrg).1 hf⟩
  · rintro ⟨os, os', hr, hg, hl⟩
    have := reads_singles hne hr
    exact ⟨os, hr, (key os os' hr (gathers_regroup hg this.1 (by omega))).2 hl⟩

end Cmdline
end PO
