import Verif.Lemmas.Grammar
import Verif.Spec.Refusal
/-
Refused command lines.
-/
namespace PO
open Spec

namespace Cmdline

/-! ### Exceptions -/

theorem addContext_complaint (c : Cmdline) (cls : ErrClass) (n t n' t' : Str) :
    (complaint c cls n t).addContext n' t' c.canonicalPrefix = complaint c cls n' t' := by
  cases cls <;> rfl

theorem addContext_unknown (c : Cmdline) (n t : Str) : (errUnknown).addContext n t c.canonicalPrefix = complaint c .unknownOption n t := rfl

theorem addContext_ambiguous (c : Cmdline) (alts : List Str) (n t : Str) :
    (errAmbiguous alts).addContext n t c.canonicalPrefix = complaint c (.ambiguousOption alts) n t := rfl

theorem addContext_syntax (c : Cmdline) (k : SyntaxKind) (n t : Str) :
    (errSyntax k).addContext n t c.canonicalPrefix = complaint c (.cmdlineSyntax k) n t := rfl

theorem errSyntax_complaint (c : Cmdline) (k : SyntaxKind) (n t : Str) : errSyntax k n t c.canonicalPrefix = complaint c (.cmdlineSyntax k) n t := rfl

/-! ### Lookup -/

theorem lookup_ambiguous (c : Cmdline) (name : Str) (f : Fail) : c.lookup name = .error f ↔ ∃ alts, Ambiguous c name alts ∧ f = errAmbiguous alts := by
  unfold lookup Ambiguous
  rw [C01_lookup_decision]
  dsimp only
  generalize exacts c.desc name (active c.style Style.longCaseInsensitive) (active c.style Style.shortCaseInsensitive) = E
  generalize approximates c.desc name (active c.style Style.allowGuessing) (active c.style Style.longCaseInsensitive) (active c.style Style.shortCaseInsensitive) = A
  rcases E with _ | ⟨d, _ | ⟨d', ds⟩⟩
  · rcases A with _ | ⟨d, _ | ⟨d', ds⟩⟩
    · simp
    · simp
    · simp only [Except.error.injEq]
      constructor
      · rintro rfl; exact ⟨_, .inr ⟨by simp, by simp, rfl⟩, rfl⟩
      · rintro ⟨alts, (⟨h, _⟩ | ⟨_, _, rfl⟩), rfl⟩
        · simp at h
        · rfl
  · simp
  · simp only [Except.error.injEq]
    constructor
    · rintro rfl; exact ⟨_, .inl ⟨by simp, rfl⟩, rfl⟩
    · rintro ⟨alts, (⟨_, rfl⟩ | ⟨h, _⟩), rfl⟩
      · rfl
      · cases h

theorem findShort_ambiguous (c : Cmdline) (a : Char) (f : Fail) :
    c.findShort ['-', a] = .error f ↔ ∃ alts, AmbiguousLetter c a alts ∧ f = complaint c (.ambiguousOption alts) ['-', a] ['-', a] := by
  unfold findShort AmbiguousLetter
  rw [C01_lookup_decision]
  dsimp only
  generalize exacts c.desc ['-', a] false (active c.style Style.shortCaseInsensitive) = E
  generalize approximates c.desc ['-', a] false false (active c.style Style.shortCaseInsensitive) = A
  rcases E with _ | ⟨d, _ | ⟨d', ds⟩⟩
  · rcases A with _ | ⟨d, _ | ⟨d', ds⟩⟩
    · simp
    · simp
    · simp only [Except.error.injEq]
      constructor
      · rintro rfl; exact ⟨_, .inr ⟨by simp, by simp, rfl⟩, rfl⟩
      · rintro ⟨alts, (⟨h, _⟩ | ⟨_, _, rfl⟩), rfl⟩
        · simp at h
        · rfl
  · simp
  · simp only [Except.error.injEq]
    constructor
    · rintro rfl; exact ⟨_, .inl ⟨by simp, rfl⟩, rfl⟩
    · rintro ⟨alts, (⟨_, rfl⟩ | ⟨h, _⟩), rfl⟩
      · rfl
      · cases h

theorem shortLoop_fails (c : Cmdline) (tok : Str) (a : Char) (t : Str) (f : Fail) :
    c.shortLoop tok ['-', a] t = .error f ↔ ∃ b alts, GroupFails c (a :: t) b alts ∧ f = complaint c (.ambiguousOption alts) ['-', b] ['-', b] := by
  induction t generalizing a with
  | nil =>
    rw [shortLoop]
    have key := c.findShort_ambiguous a f
    constructor
    · intro h
      cases hf : c.findShort ['-', a] with
      | error f' =>
        rw [hf] at h; cases h
        obtain ⟨alts, ha, rfl⟩ := key.1 hf
        exact ⟨a, alts, .here ha, rfl⟩
      | ok r => rw [hf] at h; cases h
    · rintro ⟨b, alts, hg, rfl⟩
      cases hg with
      | here h => rw [key.2 ⟨alts, h, rfl⟩]
      | switch ht => exact absurd rfl ht
  | cons b t ih =>
    rw [shortLoop]
    have key := c.findShort_ambiguous a f
    constructor
    · intro h
      cases hf : c.findShort ['-', a] with
      | error f' =>
        rw [hf] at h; cases h
        obtain ⟨alts, ha, rfl⟩ := key.1 hf
        exact ⟨a, alts, .here ha, rfl⟩
      | ok r =>
        rw [hf] at h
        dsimp only at h
        by_cases ht : c.takesNoValue r = true
        · rw [if_pos ht] at h
          cases hs : c.shortLoop tok ['-', b] t with
          | error f' =>
            rw [hs] at h; cases h
            obtain ⟨b', alts, hg, rfl⟩ := (ih b).1 hs
            exact ⟨b', alts, .switch (by simp) ((c.takesNoValue_iff a r hf).1 ht) hg, rfl⟩
          | ok os => rw [hs] at h; cases h
        · rw [if_neg ht] at h; cases h
    · rintro ⟨b', alts, hg, rfl⟩
      cases hg with
      | here h => rw [key.2 ⟨alts, h, rfl⟩]
      | switch ht hsw hg =>
        obtain ⟨d, hd, _⟩ := hsw.2
        have hr := (c.findShort_ok a (some d)).2 hd
        rw [hr]
        dsimp only
        rw [if_pos ((c.takesNoValue_iff a _ hr).2 hsw), (ih b).2 ⟨b', alts, hg, rfl⟩]

/-! ### Tokens -/

theorem lookahead_or_error (ps qs : List StyleParser) (hps : ∀ p ∈ ps, TokParser p) (tok : Str) (f : Fail) :
    lookahead (ps ++ qs) [tok] = .error f ↔ lookahead ps [tok] = .error f ∨ lookahead ps [tok] = .ok [] ∧ lookahead qs [tok] = .error f := by
  induction ps with
  | nil =>
    simp only [List.nil_append]
    rw [show lookahead [] [tok] = .ok [] from rfl]
    simp
  | cons p ps ih =>
    obtain ⟨g, hg⟩ := hps p (by simp)
    rw [List.cons_append, lookahead_cons_tok hg, lookahead_cons_tok hg]
    cases hgt : g tok with
    | error f' => simp
    | ok r =>
      cases r with
      | nil => exact ih (fun q hq => hps q (by simp [hq]))
      | cons o os => simp

theorem one_error (p : StyleParser) (tok : Str) (f : Fail) (hp : TokParser p) : lookahead [p] [tok] = .error f ↔ p [tok] = .error f := by
  obtain ⟨g, hg⟩ := hp
  rw [lookahead_cons_tok hg, hg]
  cases g tok with
  | error f' => simp
  | ok r =>
    cases r with
    | nil => simp [lookahead]
    | cons o os => simp

theorem additional_error (c : Cmdline) (tok : Str) (f : Fail) :
    lookahead (match c.additional with | some f => [parseAdditional f] | none => []) [tok] ≠ .error f := by
  intro h
  cases hc : c.additional with
  | none => rw [hc] at h; cases h
  | some g =>
    rw [hc] at h
    dsimp only at h
    rw [one_error _ _ _ (.additional g), parseAdditional] at h
    split at h <;> cases h

theorem parseLong_error (c : Cmdline) (tok : Str) (f : Fail) : c.parseLong [tok] = .error f ↔
    ∃ name, tok = '-' :: '-' :: name ++ ['='] ∧ '=' ∉ name ∧ f = complaint c (.cmdlineSyntax .emptyAdjacentParameter) name name := by
  constructor
  · intro h
    by_cases hp : ['-', '-'] <+: tok
    · obtain ⟨s, rfl⟩ := hp
      simp only [List.cons_append, List.nil_append] at h ⊢
      rcases long_cases s with hs | ⟨name, rfl, hn⟩ | ⟨name, v, rfl, hn, hv⟩
      · by_cases h0 : s = []
        · subst h0
          rw [c.parseLong_other _ _ (.inl rfl)] at h; cases h
        · rw [c.parseLong_name _ _ hs h0] at h; cases h
      · rw [← List.cons_append, ← List.cons_append, c.parseLong_empty _ _ hn] at h
        cases h
        exact ⟨name, rfl, hn, rfl⟩
      · rw [← List.cons_append, ← List.cons_append, c.parseLong_eq _ _ _ hn hv] at h; cases h
    · rw [c.parseLong_other _ _ (.inr hp)] at h; cases h
  · rintro ⟨name, rfl, hn, rfl⟩
    rw [c.parseLong_empty _ _ hn]
    rfl

theorem long_error (c : Cmdline) (tok : Str) (f : Fail) :
    lookahead (if active c.style Style.allowLong then [c.parseLong] else []) [tok] = .error f ↔
      Enabled c Style.allowLong ∧ ∃ name, tok = '-' :: '-' :: name ++ ['='] ∧ '=' ∉ name ∧
        f = complaint c (.cmdlineSyntax .emptyAdjacentParameter) name name := by
  unfold Enabled
  by_cases he : active c.style Style.allowLong = true
  · rw [if_pos he, one_error _ _ _ (.long c), parseLong_error]
    simp [he]
  · rw [if_neg he]
    simp [he, lookahead]

theorem disguised_error (c : Cmdline) (tok : Str) (f : Fail) :
    lookahead (if active c.style Style.allowLongDisguise then [c.parseDisguised] else []) [tok] = .error f ↔
      Enabled c Style.allowLongDisguise ∧
      ((∃ lead rest alts, tok = lead :: rest ∧ Disguise c lead rest ∧ Ambiguous c (beforeEq rest) alts ∧ f = complaint c (.ambiguousOption alts) tok tok) ∨
       (∃ lead name d, tok = lead :: name ++ ['='] ∧ Disguise c lead (name ++ ['=']) ∧ '=' ∉ name ∧ Denotes c name d ∧
        f = complaint c (.cmdlineSyntax .emptyAdjacentParameter) ('-' :: '-' :: name ++ ['=']) ('-' :: '-' :: name ++ ['=']))) := by
  unfold Enabled
  by_cases he : active c.style Style.allowLongDisguise = true
  · rw [if_pos he, one_error _ _ _ (.disguised c)]
    simp only [he, true_and]
    by_cases hd : ∃ lead rest, tok = lead :: rest ∧ Disguise c lead rest
    · have hd' := hd
      obtain ⟨lead, rest, rfl, hdis⟩ := hd
      rw [parseDisguised, if_pos ((c.disguise_iff _).2 hd')]
      have hlead : lead = '-' ∨ lead = '/' := by
        rcases hdis.2 with h | h
        · exact .inl h.1
        · exact .inr h.1
      rw [disguisedName_eq _ _ (by rcases hlead with rfl | rfl <;> decide)]
      have hund : undisguise (lead :: rest) = '-' :: '-' :: rest := by
        rcases hlead with rfl | rfl <;> simp [undisguise]
      rw [hund]
      cases hl : c.lookup (beforeEq rest) with
      | error f' =>
        obtain ⟨alts, ha, rfl⟩ := (c.lookup_ambiguous _ _).1 hl
        dsimp only
        rw [addContext_ambiguous]
        constructor
        · intro h; cases h
          exact .inl ⟨lead, rest, alts, rfl, hdis, ha, rfl⟩
        · rintro (⟨lead', rest', alts', e, _, ha', rfl⟩ | ⟨lead', name, d, e, _, hn, hden, _⟩)
          · cases e
            rw [(c.lookup_ambiguous _ _).2 ⟨alts', ha', rfl⟩] at hl
            cases hl
            rfl
          · simp only [List.cons_append, List.cons.injEq] at e
            rw [e.2, beforeEq_append hn, lookup_denotes.2 hden] at hl; cases hl
      | ok d =>
        have hno : ∀ alts, ¬ Ambiguous c (beforeEq rest) alts := by
          intro alts ha
          rw [(c.lookup_ambiguous _ _).2 ⟨alts, ha, rfl⟩] at hl
          cases hl
        cases d with
        | none =>
          dsimp only
          refine ⟨nofun, ?_⟩
          rintro (⟨lead', rest', alts', e, _, ha', rfl⟩ | ⟨lead', name, d, e, _, hn, hden, _⟩)
          · cases e; exact absurd ha' (hno _)
          · simp only [List.cons_append, List.cons.injEq] at e
            rw [e.2, beforeEq_append hn, lookup_denotes.2 hden] at hl; cases hl
        | some d =>
          dsimp only
          have hden := lookup_denotes.1 hl
          constructor
          · intro h
            cases hq : c.parseLong ['-' :: '-' :: rest] with
            | ok q => rw [hq] at h; cases h
            | error f' =>
              rw [hq] at h; cases h
              obtain ⟨name, e, hn, rfl⟩ := (c.parseLong_error _ _).1 hq
              simp only [List.cons_append, List.cons.injEq, true_and] at e
              subst e
              rw [addContext_complaint]
              rw [beforeEq_append hn] at hden
              exact .inr ⟨lead, name, d, rfl, hdis, hn, hden, rfl⟩
          · rintro (⟨lead', rest', alts', e, _, ha', rfl⟩ | ⟨lead', name, d', e, _, hn, hd', rfl⟩)
            · cases e; exact absurd ha' (hno _)
            · simp only [List.cons_append, List.cons.injEq] at e
              obtain ⟨_, rfl⟩ := e
              rw [show c.parseLong ['-' :: '-' :: (name ++ ['='])] = _ from (c.parseLong_error _ _).2 ⟨name, rfl, hn, rfl⟩]
              dsimp only
              rw [addContext_complaint]
              rfl
    · rw [parseDisguised, if_neg (fun h => hd ((c.disguise_iff _).1 h))]
      refine ⟨nofun, ?_⟩
      rintro (⟨lead, rest, alts, e, hdis, _⟩ | ⟨lead, name, d, e, hdis, _⟩)
      · exact absurd ⟨_, _, e, hdis⟩ hd
      · exact absurd ⟨_, _, e, hdis⟩ hd
  · rw [if_neg he]
    simp [he, lookahead]

theorem short_error (c : Cmdline) (tok : Str) (f : Fail) :
    lookahead (if active c.style Style.allowShort && active c.style Style.allowDashForShort then [c.parseShort] else []) [tok] = .error f ↔
      (Enabled c Style.allowShort ∧ Enabled c Style.allowDashForShort) ∧ ∃ a t b alts, tok = '-' :: a :: t ∧ a ≠ '-' ∧ GroupFails c (a :: t) b alts ∧
        f = complaint c (.ambiguousOption alts) ['-', b] ['-', b] := by
  by_cases he : (active c.style Style.allowShort && active c.style Style.allowDashForShort) = true
  · rw [if_pos he, one_error _ _ _ (.short c)]
    have he' : Enabled c Style.allowShort ∧ Enabled c Style.allowDashForShort := by simpa [Enabled] using he
    by_cases hd : ∃ a t, tok = '-' :: a :: t ∧ a ≠ '-'
    · obtain ⟨a, t, rfl, ha⟩ := hd
      rw [parseShort, if_pos (by simp [ha])]
      simp only [substr, List.drop_zero, List.take_succ_cons, List.take_zero, List.drop_succ_cons]
      have key := c.shortLoop_fails ('-' :: a :: t) a t f
      constructor
      · intro h
        cases hs : c.shortLoop ('-' :: a :: t) ['-', a] t with
        | error f' =>
          rw [hs] at h; cases h
          obtain ⟨b, alts, hg, rfl⟩ := key.1 hs
          exact ⟨he', a, t, b, alts, rfl, ha, hg, rfl⟩
        | ok os => rw [hs] at h; cases h
      · rintro ⟨_, a', t', b, alts, e, _, hg, rfl⟩
        cases e
        rw [key.2 ⟨b, alts, hg, rfl⟩]
    · rw [parseShort, if_neg]
      · refine ⟨nofun, ?_⟩
        rintro ⟨_, a, t, b, alts, e, ha, _⟩
        exact absurd ⟨a, t, e, ha⟩ hd
      · rintro ⟨h1, h2, h3⟩
        rcases tok with _ | ⟨x, _ | ⟨y, r⟩⟩
        · simp at h1
        · simp at h1
        · simp at h2 h3
          exact hd ⟨y, r, by rw [h2], h3⟩
  · rw [if_neg he]
    have he' : ¬ (Enabled c Style.allowShort ∧ Enabled c Style.allowDashForShort) := by simpa [Enabled] using he
    simp [he', lookahead]

theorem slash_error (c : Cmdline) (tok : Str) (f : Fail) :
    lookahead (if active c.style Style.allowShort && active c.style Style.allowSlashForShort then [parseDos] else []) [tok] ≠ .error f := by
  intro h
  by_cases he : (active c.style Style.allowShort && active c.style Style.allowSlashForShort) = true
  · rw [if_pos he, one_error _ _ _ .dos, parseDos] at h
    dsimp only at h
    split at h <;> cases h
  · rw [if_neg he] at h; cases h

theorem front_malformed (c : Cmdline) (tok : Str) (f : Fail) : c.front tok = .error f ↔ ∃ cls n t, Malformed c tok cls n t ∧ f = complaint c cls n t := by
  have htok := c.tokParsers_tok
  unfold front
  unfold tokParsers at htok ⊢
  simp only [List.append_assoc] at htok ⊢
  simp only [List.mem_append] at htok
  rw [lookahead_or_error _ _ (fun p hp => htok p (.inl hp)), lookahead_or_error _ _ (fun p hp => htok p (.inr (.inl hp))),
    lookahead_or_error _ _ (fun p hp => htok p (.inr (.inr (.inl hp)))), lookahead_or_error _ _ (fun p hp => htok p (.inr (.inr (.inr (.inl hp)))))]
  constructor
  · rintro (h | ⟨hA, h⟩)
    · exact absurd h (c.additional_error tok f)
    have hu : Unclaimed c tok := by
      rcases (c.stage_additional tok []).1 hA with ⟨h, _⟩ | ⟨f, hf, hn, h⟩
      · exact h
      · cases h
    rcases h with h | ⟨hL, h⟩
    · obtain ⟨he, name, ht, hn, rfl⟩ := (c.long_error tok f).1 h
      exact ⟨_, _, _, .long name hu he ht hn, rfl⟩
    rcases h with h | ⟨hD, h⟩
    · obtain ⟨he, ⟨lead, rest, alts, ht, hd, ha, rfl⟩ | ⟨lead, name, d, ht, hd, hn, hden, rfl⟩⟩ := (c.disguised_error tok f).1 h
      · exact ⟨_, _, _, .disguised lead rest alts hu he ht hd ha, rfl⟩
      · exact ⟨_, _, _, .disguisedEq lead name d hu he ht hd hn hden, rfl⟩
    have hd : NotDisguised c tok := by
      rcases (c.stage_disguised tok []).1 hD with ⟨h, _⟩ | ⟨lead, name, d, _, _, _, _, _, h⟩ | ⟨lead, name, v, d, _, _, _, _, _, _, h⟩
      · exact h
      · cases h
      · cases h
    rcases h with h | ⟨_, h⟩
    · obtain ⟨he, a, t, b, alts, ht, ha, hg, rfl⟩ := (c.short_error tok f).1 h
      exact ⟨_, _, _, .short a t b alts hu he ht ha hd hg, rfl⟩
    · exact absurd h (c.slash_error tok f)
  · rintro ⟨cls, n, t, h, rfl⟩
    have noLong : ¬ ['-', '-'] <+: tok → lookahead (if active c.style Style.allowLong then [c.parseLong] else []) [tok] = .ok [] :=
      fun h => (c.stage_long tok []).2 (.inl ⟨fun _ _ => h, rfl⟩)
    cases h with
    | long _ hu hs ht hn =>
      exact .inr ⟨(c.stage_additional tok []).2 (.inl ⟨hu, rfl⟩), .inl ((c.long_error tok _).2 ⟨hs, n, ht, hn, rfl⟩)⟩
    | disguised lead rest alts hu hs ht hl ha =>
      exact .inr ⟨(c.stage_additional tok []).2 (.inl ⟨hu, rfl⟩), .inr ⟨noLong (by rw [ht]; exact disguise_not_long hl),
        .inl ((c.disguised_error tok _).2 ⟨hs, .inl ⟨lead, rest, alts, ht, hl, ha, rfl⟩⟩)⟩⟩
    | disguisedEq lead name d hu hs ht hl hn hd =>
      exact .inr ⟨(c.stage_additional tok []).2 (.inl ⟨hu, rfl⟩), .inr ⟨noLong (by rw [ht]; exact disguise_not_long hl),
        .inl ((c.disguised_error tok _).2 ⟨hs, .inr ⟨lead, name, d, ht, hl, hn, hd, rfl⟩⟩)⟩⟩
    | short a t b alts hu hs ht ha hd hg =>
      refine .inr ⟨(c.stage_additional tok []).2 (.inl ⟨hu, rfl⟩), .inr ⟨noLong ?_, .inr ⟨(c.stage_disguised tok []).2 (.inl ⟨hd, rfl⟩),
        .inl ((c.short_error tok _).2 ⟨hs, a, t, b, alts, ht, ha, hg, rfl⟩)⟩⟩⟩
      rw [ht]; simp [Ne.symm ha]

/-! ### Options that cannot be completed -/

theorem plain_not_spells {c : Cmdline} {v : Str} {items : List Item} (h : Plain c v) (hs : Spells c v items) : False := by
  have h1 := (c.front_plain v).2 h
  have h2 := (c.front_iff v _).2 (.inr ⟨items, hs, rfl⟩)
  rw [h1] at h2
  cases items with
  | nil => exact spells_ne hs rfl
  | cons => simp at h2

theorem blamed_plain {c : Cmdline} {own t : Str} {taken : List Str} {b : Str} (h : Plain c t) : Blamed c own (t :: taken) b ↔ Blamed c own taken b := by
  constructor
  · intro hb
    cases hb with
    | own h => exact .own fun v hv => h v (by simp [hv])
    | last pre post _ e hb hp =>
      cases pre with
      | nil =>
        cases e
        obtain ⟨items, hb⟩ := hb
        exact (plain_not_spells h hb).elim
      | cons x pre =>
        simp only [List.cons_append, List.cons.injEq] at e
        exact .last pre post _ e.2 hb hp
  · intro hb
    cases hb with
    | own h' =>
      refine .own fun v hv => ?_
      rcases List.mem_cons.1 hv with rfl | hv
      · exact h
      · exact h' v hv
    | last pre post _ e hb hp => exact .last (t :: pre) post _ (by rw [e]; rfl) hb hp

theorem blamed_spells {c : Cmdline} {own t : Str} {taken : List Str} {b : Str} (h : ∃ items, Spells c t items) :
    Blamed c own (t :: taken) b ↔ Blamed c t taken b := by
  constructor
  · intro hb
    cases hb with
    | own h' =>
      obtain ⟨items, h⟩ := h
      exact (plain_not_spells (h' t (by simp)) h).elim
    | last pre post _ e hb hp =>
      cases pre with
      | nil => cases e; exact .own hp
      | cons x pre =>
        simp only [List.cons_append, List.cons.injEq] at e
        exact .last pre post _ e.2 hb hp
  · intro hb
    cases hb with
    | own h' => exact .last [] taken _ rfl h h'
    | last pre post _ e hb hp => exact .last (t :: pre) post _ (by rw [e]; rfl) hb hp

/-- The token at which values run out. -/
inductive Bad (c : Cmdline) (own key : Str) (taken : List Str) (v : Str) : Fail → Prop
  | malformed {cls n t b} (hf : Malformed c v cls n t) (hb : Blamed c own taken b) : Bad c own key taken v (complaint c cls key b)
  | option {d} (hs : ∃ items, Spells c v items) (hv : Denotes c v d) : Bad c own key taken v (complaint c (.cmdlineSyntax .missingParameter) key v)
  | options {alts} (hs : ∃ items, Spells c v items) (hv : Ambiguous c v alts) : Bad c own key taken v (complaint c (.ambiguousOption alts) key v)

theorem bad_plain {c : Cmdline} {own key t : Str} {taken : List Str} {v : Str} {f : Fail} (h : Plain c t) :
    Bad c own key (t :: taken) v f ↔ Bad c own key taken v f := by
  constructor
  · rintro (⟨hf, hb⟩ | ⟨hs, hv⟩ | ⟨hs, hv⟩)
    · exact .malformed hf ((blamed_plain h).1 hb)
    · exact .option hs hv
    · exact .options hs hv
  · rintro (⟨hf, hb⟩ | ⟨hs, hv⟩ | ⟨hs, hv⟩)
    · exact .malformed hf ((blamed_plain h).2 hb)
    · exact .option hs hv
    · exact .options hs hv

theorem bad_spells {c : Cmdline} {own key t : Str} {taken : List Str} {v : Str} {f : Fail} (h : ∃ items, Spells c t items) :
    Bad c own key (t :: taken) v f ↔ Bad c t key taken v f := by
  constructor
  · rintro (⟨hf, hb⟩ | ⟨hs, hv⟩ | ⟨hs, hv⟩)
    · exact .malformed hf ((blamed_spells h).1 hb)
    · exact .option hs hv
    · exact .options hs hv
  · rintro (⟨hf, hb⟩ | ⟨hs, hv⟩ | ⟨hs, hv⟩)
    · exact .malformed hf ((blamed_spells h).2 hb)
    · exact .option hs hv
    · exact .options hs hv

/-- What the token at which values run out does to the scan. -/
theorem bad_first {c : Cmdline} {own key v : Str} {f : Fail} : Bad c own key [] v f ↔
    (∃ f', c.front v = .error f' ∧ f = f'.addContext key own c.canonicalPrefix) ∨
    (∃ o os, c.front v = .ok (o :: os)) ∧
      ((∃ f', c.lookup v = .error f' ∧ f = f'.addContext key v c.canonicalPrefix) ∨
       (∃ d, c.lookup v = .ok (some d)) ∧ f = (errSyntax .missingParameter).addContext key v c.canonicalPrefix) := by
  have hsp : (∃ items, Spells c v items) ↔ ∃ o os, c.front v = .ok (o :: os) := by
    constructor
    · rintro ⟨items, h⟩
      cases items with
      | nil => exact absurd rfl (spells_ne h)
      | cons i is => exact ⟨_, _, (c.front_iff v _).2 (.inr ⟨i :: is, h, rfl⟩)⟩
    · rintro ⟨o, os, h⟩
      obtain ⟨items, h, _⟩ := (c.front_spells v _ (by simp)).1 h
      exact ⟨items, h⟩
  constructor
  · rintro (⟨hf, hb⟩ | ⟨hs, hv⟩ | ⟨hs, hv⟩)
    · rename_i cls n t b
      refine .inl ⟨_, (c.front_malformed v _).2 ⟨cls, n, t, hf, rfl⟩, ?_⟩
      rw [addContext_complaint]
      cases hb with
      | own => rfl
      | last pre post _ e => simp at e
    · exact .inr ⟨hsp.1 hs, .inr ⟨⟨_, lookup_denotes.2 hv⟩, rfl⟩⟩
    · exact .inr ⟨hsp.1 hs, .inl ⟨_, (c.lookup_ambiguous _ _).2 ⟨_, hv, rfl⟩, rfl⟩⟩
  · rintro (⟨f', hf, rfl⟩ | ⟨hs, ⟨f', hl, rfl⟩ | ⟨⟨d, hl⟩, rfl⟩⟩)
    · obtain ⟨cls, n, t, hm, rfl⟩ := (c.front_malformed v _).1 hf
      rw [addContext_complaint]
      exact .malformed hm (.own (by simp))
    · obtain ⟨alts, ha, rfl⟩ := (c.lookup_ambiguous _ _).1 hl
      exact .options (hsp.2 hs) ha
    · exact .option (hsp.2 hs) (lookup_denotes.1 hl)

theorem grab_error (c : Cmdline) (hs : c.styleParser = none) (n : Nat) (other : List Str) (opt : Opt) (orig : Str) (f : Fail) :
    c.grab c.parsers n other opt orig = .error f ↔
      ∃ taken v rest, other = taken ++ v :: rest ∧ taken.length < n ∧ (∀ v ∈ taken, Takeable c v) ∧ Bad c orig opt.stringKey taken v f := by
  induction n generalizing other opt orig with
  | zero => rw [grab]; simp
  | succ n ih =>
    cases other with
    | nil => rw [grab]; simp
    | cons t ts =>
      have key : ∀ orig', Takeable c t → (∀ taken v, Bad c orig opt.stringKey (t :: taken) v f ↔ Bad c orig' opt.stringKey taken v f) →
          ¬ Bad c orig opt.stringKey [] t f →
          (c.grab c.parsers n ts { opt with value := opt.value ++ [t], originalTokens := opt.originalTokens ++ [t] } orig' = .error f ↔
          ∃ taken v rest, t :: ts = taken ++ v :: rest ∧ taken.length < n + 1 ∧ (∀ v ∈ taken, Takeable c v) ∧ Bad c orig opt.stringKey taken v f) := by
        intro orig' htk hbad hnot
        rw [ih ts _ orig']
        constructor
        · rintro ⟨taken, v, rest, rfl, hl, ht, hb⟩
          refine ⟨t :: taken, v, rest, rfl, by simp [hl], ?_, (hbad _ _).2 hb⟩
          intro v hv
          rcases List.mem_cons.1 hv with rfl | hv
          · exact htk
          · exact ht v hv
        · rintro ⟨taken, v, rest, e, hl, ht, hb⟩
          cases taken with
          | nil => cases e; exact absurd hb hnot
          | cons x taken =>
            simp only [List.cons_append, List.cons.injEq] at e
            obtain ⟨rfl, rfl⟩ := e
            exact ⟨taken, v, rest, rfl, by simpa using hl, fun v hv => ht v (by simp [hv]), (hbad _ _).1 hb⟩
      have stop : ∀ f', ¬ Takeable c t → (f' = f ↔ Bad c orig opt.stringKey [] t f) → (Except.error f' = (Except.error f : Except Fail (Opt × List Str)) ↔
          ∃ taken v rest, t :: ts = taken ++ v :: rest ∧ taken.length < n + 1 ∧ (∀ v ∈ taken, Takeable c v) ∧ Bad c orig opt.stringKey taken v f) := by
        intro f' htk hf
        constructor
        · intro h; cases h
          exact ⟨[], t, ts, rfl, by simp, by simp, hf.1 rfl⟩
        · rintro ⟨taken, v, rest, e, hl, ht, hb⟩
          cases taken with
          | nil => cases e; rw [hf.2 hb]
          | cons x taken =>
            simp only [List.cons_append, List.cons.injEq] at e
            exact absurd (e.1 ▸ ht x (by simp)) htk
      have hfirst := bad_first (c := c) (own := orig) (key := opt.stringKey) (v := t) (f := f)
      rw [grab, c.lookahead_front hs]
      cases hf : c.front t with
      | error f' =>
        refine stop _ (by rw [takeable_iff, hf]; simp) ?_
        rw [hfirst, hf]
        simp [eq_comm]
      | ok l =>
        cases l with
        | nil =>
          have hp := (c.front_plain t).1 hf
          exact key _ ((c.takeable_iff t).2 (.inl hf)) (fun taken v => bad_plain hp) (by rw [hfirst, hf]; simp)
        | cons o os =>
          simp only
          cases hl : c.lookup t with
          | error f' =>
            refine stop _ (by rw [takeable_iff, hf, hl]; simp) ?_
            rw [hfirst, hf, hl]
            simp [eq_comm]
          | ok d =>
            cases d with
            | none =>
              obtain ⟨items, hsp, _⟩ := (c.front_spells t _ (by simp)).1 hf
              exact key _ ((c.takeable_iff t).2 (.inr ⟨⟨o, os, hf⟩, hl⟩)) (fun taken v => bad_spells ⟨items, hsp⟩) (by rw [hfirst, hf, hl]; simp)
            | some d =>
              refine stop _ (by rw [takeable_iff, hf, hl]; simp) ?_
              rw [hfirst, hf, hl]
              simp [eq_comm]

theorem origFor_token (i : Item) : origFor i.toOpt = i.token := by
  unfold origFor Item.token Item.toOpt
  cases i.tokens <;> rfl

theorem finishOption_error (c : Cmdline) (hs : c.styleParser = none) (i : Item) (other : List Str) (f : Fail) :
    c.finishOption c.parsers i.toOpt other = .error f ↔ ∃ cls n t, Stuck c i other cls n t ∧ f = complaint c cls n t := by
  unfold finishOption
  have hk : i.toOpt.stringKey = i.name := rfl
  have hv : i.toOpt.value = i.value := rfl
  rw [hk]
  by_cases h0 : i.name = []
  · rw [if_pos h0]
    refine ⟨nofun, ?_⟩
    rintro ⟨cls, n, t, h, rfl⟩
    cases h <;> exact absurd h0 ‹_›
  · rw [if_neg h0, origFor_token]
    dsimp only
    have hamb : ∀ alts, Ambiguous c i.name alts → c.lookup i.name = .error (errAmbiguous alts) := fun alts h => (c.lookup_ambiguous _ _).2 ⟨alts, h, rfl⟩
    have hden : ∀ d, Denotes c i.name d → c.lookup i.name = .ok (some d) := fun d h => lookup_denotes.2 h
    cases hl : c.lookup i.name with
    | error f' =>
      dsimp only
      rw [hl] at hamb hden
      constructor
      · intro h; cases h
        obtain ⟨alts, ha, rfl⟩ := (c.lookup_ambiguous _ _).1 hl
        exact ⟨_, _, _, .ambiguous alts h0 ha, rfl⟩
      · rintro ⟨cls, n, t, h, rfl⟩
        cases h with
        | ambiguous alts _ ha => cases hamb alts ha; rfl
        | unknown _ hn => rw [lookup_unknown.2 hn] at hl; cases hl
        | missing d _ hd => cases hden d hd
        | extra d _ hd => cases hden d hd
        | malformed d _ _ _ _ _ _ _ _ hd => cases hden d hd
        | option d _ _ _ _ _ hd => cases hden d hd
        | options d _ _ _ _ _ hd => cases hden d hd
    | ok d =>
      rw [hl] at hamb hden
      cases d with
      | none =>
        dsimp only
        have hn := lookup_unknown.1 hl
        by_cases hu : c.allowUnregistered = true
        · rw [if_pos hu]
          refine ⟨nofun, ?_⟩
          rintro ⟨cls, n, t, h, rfl⟩
          cases h with
          | ambiguous alts _ ha => cases hamb alts ha
          | unknown _ _ h => rw [hu] at h; cases h
          | missing d _ hd => cases hden d hd
          | extra d _ hd => cases hden d hd
          | malformed d _ _ _ _ _ _ _ _ hd => cases hden d hd
          | option d _ _ _ _ _ hd => cases hden d hd
          | options d _ _ _ _ _ hd => cases hden d hd
        · rw [if_neg hu]
          constructor
          · intro h; cases h
            exact ⟨_, _, _, .unknown h0 hn (by simpa using hu), rfl⟩
          · rintro ⟨cls, n, t, h, rfl⟩
            cases h with
            | ambiguous alts _ ha => cases hamb alts ha
            | unknown _ _ h => rfl
            | missing d _ hd => cases hden d hd
            | extra d _ hd => cases hden d hd
            | malformed d _ _ _ _ _ _ _ _ hd => cases hden d hd
            | option d _ _ _ _ _ hd => cases hden d hd
            | options d _ _ _ _ _ hd => cases hden d hd
      | some d =>
        dsimp only
        have hd := lookup_denotes.1 hl
        rw [hv, key_eq]
        by_cases hm : i.value.length + other.length ≥ d.semantic.minTokens
        · rw [if_pos hm]
          by_cases hx : i.value ≠ [] ∧ d.semantic.maxTokens = 0
          · rw [if_pos hx]
            constructor
            · intro h; cases h
              exact ⟨_, _, _, .extra d h0 hd hm hx.1 hx.2, rfl⟩
            · rintro ⟨cls, n, t, h, rfl⟩
              cases h with
              | ambiguous alts _ ha => cases hamb alts ha
              | unknown _ hn => rw [lookup_unknown.2 hn] at hl; cases hl
              | missing d' _ hd' hm' => cases hden d' hd'; omega
              | extra d' _ hd' => cases hden d' hd'; rfl
              | malformed d' _ _ _ _ _ _ _ _ hd' _ hx' => cases hden d' hd'; exact absurd (hx' hx.2) hx.1
              | option d' _ _ _ _ _ hd' _ hx' => cases hden d' hd'; exact absurd (hx' hx.2) hx.1
              | options d' _ _ _ _ _ hd' _ hx' => cases hden d' hd'; exact absurd (hx' hx.2) hx.1
          · rw [if_neg hx, c.grab_error hs]
            dsimp only
            have hx' : d.semantic.maxTokens = 0 → i.value = [] := fun h => Decidable.byContradiction fun hne => hx ⟨hne, h⟩
            constructor
            · rintro ⟨taken, v, rest, rfl, hlen, ht, hb⟩
              cases hb with
              | malformed hf hb => exact ⟨_, _, _, .malformed d taken rest v _ _ _ _ h0 hd hm hx' rfl (by omega) ht hf hb, rfl⟩
              | option hsp hv => exact ⟨_, _, _, .option d taken rest v _ h0 hd hm hx' rfl (by omega) ht hsp hv, rfl⟩
              | options hsp hv => exact ⟨_, _, _, .options d taken rest v _ h0 hd hm hx' rfl (by omega) ht hsp hv, rfl⟩
            · rintro ⟨cls, n, t, h, rfl⟩
              cases h with
              | ambiguous alts _ ha => cases hamb alts ha
              | unknown _ hn => rw [lookup_unknown.2 hn] at hl; cases hl
              | missing d' _ hd' hm' => cases hden d' hd'; omega
              | extra d' _ hd' _ hv' h0' => cases hden d' hd'; exact absurd ⟨hv', h0'⟩ hx
              | malformed d' taken rest v cls n t b _ hd' _ _ e hlen ht hf hb =>
                cases hden d' hd'
                exact ⟨taken, v, rest, e, by omega, ht, .malformed hf hb⟩
              | option d' taken rest _ d2 _ hd' _ _ e hlen ht hsp hv =>
                cases hden d' hd'
                exact ⟨taken, _, rest, e, by omega, ht, .option hsp hv⟩
              | options d' taken rest _ alts _ hd' _ _ e hlen ht hsp hv =>
                cases hden d' hd'
                exact ⟨taken, _, rest, e, by omega, ht, .options hsp hv⟩
        · rw [if_neg hm]
          constructor
          · intro h; cases h
            exact ⟨_, _, _, .missing d h0 hd (by omega), rfl⟩
          · rintro ⟨cls, n, t, h, rfl⟩
            cases h with
            | ambiguous alts _ ha => cases hamb alts ha
            | unknown _ hn => rw [lookup_unknown.2 hn] at hl; cases hl
            | missing d' _ hd' hm' => cases hden d' hd'; rfl
            | extra d' _ hd' hm' => cases hden d' hd'; exact absurd hm' hm
            | malformed d' _ _ _ _ _ _ _ _ hd' hm' => cases hden d' hd'; exact absurd hm' hm
            | option d' _ _ _ _ _ hd' hm' => cases hden d' hd'; exact absurd hm' hm
            | options d' _ _ _ _ _ hd' hm' => cases hden d' hd'; exact absurd hm' hm

theorem finishAll_error (c : Cmdline) (hs : c.styleParser = none) (is : List Item) (h0 : is ≠ []) (args : List Str) (f : Fail) :
    c.finishAll c.parsers (is.map Item.toOpt) args = .error f ↔ ∃ cls n t, StuckAll c is args cls n t ∧ f = complaint c cls n t := by
  induction is with
  | nil => exact absurd rfl h0
  | cons i is ih =>
    cases is with
    | nil =>
      simp only [List.map_cons, List.map_nil]
      rw [finishAll]
      have key := c.finishOption_error hs i args
      constructor
      · intro h
        cases hf : c.finishOption c.parsers i.toOpt args with
        | error f' =>
          rw [hf] at h; cases h
          obtain ⟨cls, n, t, hst, rfl⟩ := (key _).1 hf
          exact ⟨cls, n, t, .one hst, rfl⟩
        | ok r => rw [hf] at h; cases h
      · rintro ⟨cls, n, t, hst, rfl⟩
        cases hst with
        | one h => rw [(key _).2 ⟨cls, n, t, h, rfl⟩]
        | head h => exact absurd rfl h
        | tail h s => cases s
    | cons i2 is =>
      simp only [List.map_cons]
      rw [finishAll.eq_3 _ _ _ _ _ (by simp)]
      have key := c.finishOption_error hs i []
      have key' := fun o' rest => c.finishOption_iff hs i [] o' rest
      have ih := ih (by simp)
      simp only [List.map_cons] at ih
      constructor
      · intro h
        cases hf : c.finishOption c.parsers i.toOpt [] with
        | error f' =>
          rw [hf] at h; cases h
          obtain ⟨cls, n, t, hst, rfl⟩ := (key _).1 hf
          exact ⟨cls, n, t, .head (by simp) hst, rfl⟩
        | ok r =>
          obtain ⟨o, a⟩ := r
          rw [hf] at h
          dsimp only at h
          cases hg : c.finishAll c.parsers (i2.toOpt :: is.map Item.toOpt) args with
          | ok r => rw [hg] at h; cases h
          | error f' =>
            rw [hg] at h; cases h
            obtain ⟨taken, e, hc⟩ := (key' _ _).1 hf
            have := List.append_eq_nil_iff.1 e.symm
            rw [this.1] at hc
            obtain ⟨cls, n, t, hst, rfl⟩ := ih.1 hg
            exact ⟨cls, n, t, .tail hc hst, rfl⟩
      · rintro ⟨cls, n, t, hst, rfl⟩
        cases hst with
        | head _ h => rw [(key _).2 ⟨cls, n, t, h, rfl⟩]
        | tail h s =>
          rw [(key' _ []).2 ⟨[], rfl, h⟩]
          dsimp only
          rw [ih.2 ⟨cls, n, t, s, rfl⟩]

/-! ### The first pass -/

theorem loop_breaks (c : Cmdline) (hs : c.styleParser = none) (fuel : Nat) (args : List Str) (f : Fail) (hfu : args.length ≤ fuel)
    (h : c.loop fuel args = .error f) : ∃ cls n t, Breaks c args cls n t ∧ f = complaint c cls n t := by
  induction fuel generalizing args with
  | zero =>
    cases args with
    | nil => rw [loop] at h; cases h
    | cons a args => simp at hfu
  | succ fuel ih =>
    cases args with
    | nil => rw [loop] at h; cases h
    | cons tok rest =>
      rw [loop, c.step_eq hs] at h
      have hfu : rest.length ≤ fuel := by simpa using hfu
      cases hf : c.front tok with
      | error f' =>
        rw [hf] at h; cases h
        obtain ⟨cls, n, t, hm, rfl⟩ := (c.front_malformed _ _).1 hf
        exact ⟨cls, n, t, .malformed hm, rfl⟩
      | ok l =>
        rw [hf] at h
        cases l with
        | nil =>
          simp only at h
          by_cases hd : tok = ['-', '-']
          · rw [if_pos hd] at h
            simp only [loop] at h
            cases h
          · rw [if_neg hd] at h
            simp only at h
            cases hl : c.loop fuel rest with
            | error f' =>
              rw [hl] at h; cases h
              obtain ⟨cls, n, t, hb, rfl⟩ := ih _ hfu hl
              exact ⟨cls, n, t, .plain ((c.front_plain _).1 hf) hd hb, rfl⟩
            | ok more => rw [hl] at h; cases h
        | cons o l =>
          obtain ⟨items, hsp, e⟩ := (c.front_spells _ _ (by simp)).1 hf
          rw [e] at h hf
          have hmatch : ∀ (A : Except Fail (List Opt × List Str)), (match items.map Item.toOpt with
              | [] => A | _ :: _ => c.finishAll c.parsers (items.map Item.toOpt) rest) = c.finishAll c.parsers (items.map Item.toOpt) rest := by
            intro A
            cases items with
            | nil => exact absurd rfl (spells_ne hsp)
            | cons => rfl
          cases items with
          | nil => exact absurd rfl (spells_ne hsp)
          | cons i is =>
            simp only [List.map_cons] at h
            cases hfin : c.finishAll c.parsers (i.toOpt :: is.map Item.toOpt) rest with
            | error f' =>
              rw [hfin] at h; cases h
              obtain ⟨cls, n, t, hst, rfl⟩ := (c.finishAll_error hs (i :: is) (by simp) rest _).1 hfin
              exact ⟨cls, n, t, .stuck hsp hst, rfl⟩
            | ok r =>
              obtain ⟨os1, rest'⟩ := r
              rw [hfin] at h
              simp only at h
              obtain ⟨taken, rfl, hc⟩ := (c.finishAll_iff hs (i :: is) (by simp) rest _ _).1 hfin
              cases hl : c.loop fuel rest' with
              | ok more => rw [hl] at h; cases h
              | error f' =>
                rw [hl] at h; cases h
                obtain ⟨cls, n, t, hb, rfl⟩ := ih _ (by simp at hfu; omega) hl
                exact ⟨cls, n, t, .option hsp hc hb, rfl⟩

theorem breaks_loop (c : Cmdline) (hs : c.styleParser = none) (args : List Str) (cls : ErrClass) (n t : Str) (h : Breaks c args cls n t)
    (fuel : Nat) (hfu : args.length ≤ fuel) : c.loop fuel args = .error (complaint c cls n t) := by
  induction h generalizing fuel with
  | malformed h =>
    cases fuel with
    | zero => simp at hfu
    | succ fuel =>
      rw [loop, c.step_eq hs, (c.front_malformed _ _).2 ⟨_, _, _, h, rfl⟩]
  | @stuck tok items rest cls n t h hst =>
    cases fuel with
    | zero => simp at hfu
    | succ fuel =>
      rw [loop, c.step_eq hs, (c.front_iff _ _).2 (.inr ⟨_, h, rfl⟩)]
      have := (c.finishAll_error hs items (spells_ne h) rest _).2 ⟨_, _, _, hst, rfl⟩
      cases items with
      | nil => exact absurd rfl (spells_ne h)
      | cons i is =>
        simp only [List.map_cons] at this ⊢
        rw [this]
  | plain hp hd _ ih =>
    cases fuel with
    | zero => simp at hfu
    | succ fuel =>
      rw [loop, c.step_eq hs, (c.front_plain _).2 hp]
      simp only [if_neg hd]
      rw [ih fuel (by simpa using hfu)]
  | @option tok items taken os rest cls n t h hc _ ih =>
    cases fuel with
    | zero => simp at hfu
    | succ fuel =>
      rw [List.cons_append, loop, c.step_eq hs, (c.front_iff _ _).2 (.inr ⟨_, h, rfl⟩)]
      have := (c.finishAll_iff hs items (spells_ne h) (taken ++ rest) os rest).2 ⟨_, rfl, hc⟩
      cases items with
      | nil => exact absurd rfl (spells_ne h)
      | cons i is =>
        simp only [List.map_cons] at this ⊢
        rw [this]
        simp only
        rw [ih fuel (by simp at hfu; omega)]

/-! ### The second pass -/

theorem absorb_ok (lim : Option Nat) (o : Opt) (ps : List Opt) (hs : Singles ps) : ∃ r, absorb lim o ps = .ok r := by
  induction ps generalizing lim o with
  | nil => exact ⟨_, by rw [absorb]⟩
  | cons p ps ih =>
    rw [absorb]
    by_cases h1 : lim = some 0
    · rw [if_pos h1]; exact ⟨_, rfl⟩
    rw [if_neg h1]
    by_cases h2 : p.stringKey = []
    · rw [if_neg (by simpa using h2)]
      by_cases h3 : p.positionKey = intMax
      · rw [if_pos h3]; exact ⟨_, rfl⟩
      · rw [if_neg h3]
        obtain ⟨hv, ht⟩ := hs p (by simp) h2
        obtain ⟨v, hv⟩ := List.length_eq_one_iff.1 hv
        obtain ⟨t, ht⟩ := List.length_eq_one_iff.1 ht
        rw [hv, ht]
        dsimp only
        obtain ⟨r, hr⟩ := ih (lim.map (· - 1)) { o with value := o.value ++ [v], originalTokens := o.originalTokens ++ [t] } (fun q hq => hs q (by simp [hq]))
        rw [hr]
        exact ⟨_, rfl⟩
    · rw [if_pos h2]; exact ⟨_, rfl⟩

theorem clashes_regroup {c : Cmdline} {os : List Opt} {f : Fail} (h : Clashes c os f) (hs : Singles os) (hlen : (unnamed os).length < 2147483648) :
    c.regroup 0 os = .error f := by
  induction h with
  | here t ts h ha ht =>
    rw [regroup]
    dsimp only
    rw [if_neg h, (c.lookup_ambiguous _ _).2 ⟨_, ha, rfl⟩, ht]
    rfl
  | undefined h ha ht =>
    rw [regroup]
    dsimp only
    rw [if_neg h, (c.lookup_ambiguous _ _).2 ⟨_, ha, rfl⟩, ht]
    rfl
  | @positional o os f h t ih =>
    rw [regroup]
    dsimp only
    rw [if_pos h, ih (fun q hq => hs q (by simp [hq])) (by rw [unnamed_cons_nil h] at hlen; simp at hlen; omega)]
  | @keep o os f h hr t ih =>
    rw [regroup]
    dsimp only
    have ih := ih (fun q hq => hs q (by simp [hq])) (by rw [unnamed_cons_ne h] at hlen; exact hlen)
    rw [if_neg h]
    rcases hr with hr | ⟨d, hd, hr⟩
    · rw [lookup_unknown.2 hr]
      dsimp only
      rw [ih]
    · rw [lookup_denotes.2 hd]
      dsimp only
      rw [if_neg (show ¬ (d.semantic.minTokens < d.semantic.maxTokens ∧ o.value.length < d.semantic.maxTokens) from hr), ih]
  | @take o ps os f d h hd hr hp hmax t ih =>
    rw [regroup]
    dsimp only
    rw [unnamed_cons_ne h, unnamed_length_append _ _ (fun p hpp => (hp p hpp).1)] at hlen
    have ih := ih (fun q hq => hs q (by simp [hq])) (by omega)
    rw [if_neg h, lookup_denotes.2 hd]
    dsimp only
    rw [if_pos (show d.semantic.minTokens < d.semantic.maxTokens ∧ o.value.length < d.semantic.maxTokens from hr), absorb_take _ o ps os]
    · dsimp only
      rw [regroup_drop, List.drop_left, ih]
    · intro p hpp
      have := hs p (by simp [hpp]) (hp p hpp).1
      exact ⟨(hp p hpp).1, (hp p hpp).2, this⟩
    · unfold takeLimit
      rcases hmax with hm | ⟨hm, hq⟩
      · left
        rw [if_pos (by omega)]
        congr 1
        omega
      · right
        refine ⟨fun n hn => ?_, hq⟩
        split at hn
        · cases hn; omega
        · cases hn

theorem regroup_clashes (c : Cmdline) (os : List Opt) (f : Fail) (hs : Singles os) (hlen : (unnamed os).length < 2147483648)
    (h : c.regroup 0 os = .error f) : Clashes c os f := by
  suffices hgen : ∀ n os, os.length ≤ n → Singles os → (unnamed os).length < 2147483648 → c.regroup 0 os = .error f → Clashes c os f from
    hgen _ _ (Nat.le_refl _) hs hlen h
  clear h hlen hs os
  intro n
  induction n with
  | zero =>
    intro os hl _ _ h
    cases os with
    | nil => rw [regroup] at h; cases h
    | cons o os => simp at hl
  | succ n ih =>
    intro os hl hs hlen h
    cases os with
    | nil => rw [regroup] at h; cases h
    | cons o os =>
      simp only [List.length_cons] at hl
      rw [regroup] at h
      dsimp only at h
      have hs' : Singles os := fun q hq => hs q (by simp [hq])
      by_cases hk : o.stringKey = []
      · rw [if_pos hk] at h
        rw [unnamed_cons_nil hk] at hlen
        cases hr : c.regroup 0 os with
        | ok os' => rw [hr] at h; cases h
        | error f' =>
          rw [hr] at h; cases h
          exact .positional hk (ih _ (by omega) hs' (by simp at hlen; omega) hr)
      · rw [if_neg hk] at h
        rw [unnamed_cons_ne hk] at hlen
        cases hlk : c.lookup o.stringKey with
        | error f' =>
          obtain ⟨alts, ha, rfl⟩ := (c.lookup_ambiguous _ _).1 hlk
          rw [hlk] at h
          change (match o.originalTokens with
            | [] => (Except.error (Fail.ub .emptyOriginalTokens) : Except Fail (List Opt))
            | t :: _ => Except.error (complaint c (.ambiguousOption alts) o.stringKey t)) = _ at h
          cases ht : o.originalTokens with
          | nil => rw [ht] at h; cases h; exact .undefined hk ha ht
          | cons t ts => rw [ht] at h; cases h; exact .here t ts hk ha ht
        | ok d =>
          rw [hlk] at h
          cases d with
          | none =>
            dsimp only at h
            cases hr : c.regroup 0 os with
            | ok os' => rw [hr] at h; cases h
            | error f' =>
              rw [hr] at h; cases h
              exact .keep hk (.inl (lookup_unknown.1 hlk)) (ih _ (by omega) hs' hlen hr)
          | some d =>
            dsimp only at h
            have hd := lookup_denotes.1 hlk
            by_cases hm : d.semantic.minTokens < d.semantic.maxTokens ∧ o.value.length < d.semantic.maxTokens
            · rw [if_pos hm] at h
              obtain ⟨⟨o', k⟩, ha⟩ := absorb_ok (takeLimit d.semantic.maxTokens o.value.length) o os hs'
              rw [ha] at h
              dsimp only at h
              obtain ⟨h1, h2, h3, h4, h5⟩ := absorb_spec _ _ _ _ _ ha
              rw [regroup_drop] at h
              have hcount : (unnamed os).length = k + (unnamed (os.drop k)).length := by
                have := unnamed_length_append (os.take k) (os.drop k) (fun p hp => (h3 p hp).1)
                rw [List.take_append_drop, List.length_take, Nat.min_eq_left h1] at this
                exact this
              cases hr : c.regroup 0 (os.drop k) with
              | ok os' => rw [hr] at h; cases h
              | error f' =>
                rw [hr] at h; cases h
                have := ih (os.drop k) (by simp; omega) (fun q hq => hs' q (List.mem_of_mem_drop hq)) (by omega) hr
                have hgoal := Clashes.take (ps := os.take k) d hk hd hm (fun p hp => ⟨(h3 p hp).1, (h3 p hp).2.1⟩) ?_ this
                · rw [List.take_append_drop] at hgoal
                  exact hgoal
                · have hlk : (os.take k).length = k := by simp; omega
                  rw [hlk]
                  unfold takeLimit at h4 h5
                  split at h4
                  · rename_i hlt
                    have h4 := h4 _ rfl
                    rw [if_pos hlt] at h5
                    by_cases he : k = d.semantic.maxTokens - o.value.length
                    · left; omega
                    · right
                      refine ⟨by omega, fun p hp hloose => ?_⟩
                      have := h5 p hp hloose.1 hloose.2
                      cases this
                      exact he rfl
                  · rename_i hlt
                    rw [if_neg hlt] at h5
                    right
                    refine ⟨by omega, fun p hp hloose => ?_⟩
                    have := h5 p hp hloose.1 hloose.2
                    cases this
            · rw [if_neg hm] at h
              cases hr : c.regroup 0 os with
              | ok os' => rw [hr] at h; cases h
              | error f' =>
                rw [hr] at h; cases h
                exact .keep hk (.inr ⟨d, hd, hm⟩) (ih _ (by omega) hs' hlen hr)

/-! ### The whole -/

theorem tooMany_trailing (p : Positional) (n : Nat) : tooMany p n = true ↔ p.trailing = [] ∧ p.names.length < n := by
  unfold tooMany Positional.maxTotalCount
  by_cases h : p.trailing = []
  · simp [h]
  · simp [h]

/-- A parse fails with an exception exactly if the rules give it. -/
theorem run_refused (c : Cmdline) (hs : c.styleParser = none) (hne : KeysNonempty c) (args : List Str) (hlen : args.length < 2147483648)
    (f : Fail) : c.run args = .error f ↔ Refused c args f := by
  unfold run runFuel
  have key : ∀ os os', Reads c args os → c.regroup 0 os = .ok os' → (c.finalize os = .error f ↔
      ∃ p, c.positional = some p ∧ p.trailing = [] ∧ p.names.length < (unnamed os').length ∧ f = .tooManyPositional) := by
    intro os os' hr hrg
    have hp := (c.pass_reads hs args os).2 hr
    have hw : ∀ o ∈ os', o.stringKey ≠ [] → o.positionKey = -1 := by
      intro o ho hk
      obtain ⟨o1, ho1, ps, _, rfl, _⟩ := (c.regroup_regrouped _ _ hrg).mem o ho
      exact (hp.made o1 ho1).position hk
    rw [c.finalize_eq _ _ hrg hw]
    cases hpos : c.positional with
    | none => simp
    | some p =>
      dsimp only
      by_cases ht : tooMany p (unnamed os').length = true
      · rw [if_pos ht]
        have := (tooMany_trailing p _).1 ht
        simp [this, eq_comm]
      · rw [if_neg ht]
        refine ⟨nofun, ?_⟩
        rintro ⟨p', e, h1, h2, _⟩
        cases e
        exact absurd ((tooMany_trailing p _).2 ⟨h1, h2⟩) ht
  constructor
  · intro h
    cases hl : c.loop (args.length + 1) args with
    | error f' =>
      rw [hl] at h; cases h
      obtain ⟨cls, n, t, hb, rfl⟩ := c.loop_breaks hs _ _ _ (by omega) hl
      exact .reading hb
    | ok os =>
      rw [hl] at h
      dsimp only at h
      have hr := (c.pass_reads hs args os).1 (c.loop_pass hs _ _ _ hl)
      have hsing := reads_singles hne hr
      cases hrg : c.regroup 0 os with
      | error f' =>
        rw [finalize, hrg] at h; cases h
        exact .gathering hr (c.regroup_clashes os _ hsing.1 (by omega) hrg)
      | ok os' =>
        obtain ⟨p, h1, h2, h3, rfl⟩ := (key os os' hr hrg).1 h
        exact .labelling p hr (c.regroup_gathers _ _ (by omega) hrg) h1 h2 h3
  · intro h
    cases h with
    | reading h => rw [c.breaks_loop hs _ _ _ _ h _ (by omega)]
    | gathering h hc =>
      have hsing := reads_singles hne h
      rw [c.pass_loop hs _ _ ((c.pass_reads hs _ _).2 h) _ (by omega)]
      dsimp only
      rw [finalize, clashes_regroup hc hsing.1 (by omega)]
    | labelling p h hg hp ht hn =>
      have hsing := reads_singles hne h
      rw [c.pass_loop hs _ _ ((c.pass_reads hs _ _).2 h) _ (by omega)]
      exact (key _ _ h (gathers_regroup hg hsing.1 (by omega))).2 ⟨p, hp, ht, hn, rfl⟩

end Cmdline
end PO
