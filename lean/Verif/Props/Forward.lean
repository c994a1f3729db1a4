import Verif.Props.Compose
import Verif.Props.Tokens
/-
C89: a command line falls into the part that is recognised and the part that is passed on.
-/
namespace PO
open Spec

namespace Cmdline

variable {c : Cmdline}

theorem denotes_not_unknown {name : Str} {d : OptionDesc} (h : Denotes c name d) (hu : Unknown c name) : False := by
  unfold Denotes at h
  rcases h with h | ⟨_, h⟩
  · have : d ∈ exacts c.desc name _ _ := h ▸ List.mem_singleton.2 rfl
    obtain ⟨hm, he⟩ := List.mem_filter.1 this
    exact (hu d hm).1 (by simpa using he)
  · have : d ∈ approximates c.desc name _ _ _ := h ▸ List.mem_singleton.2 rfl
    obtain ⟨hm, he⟩ := List.mem_filter.1 this
    exact (hu d hm).2 (by simpa using (of_decide_eq_true he).2)

theorem group_tokens {tok t : Str} {items : List Item} (h : Group c tok t items) : items.flatMap (·.tokens) = [tok] := by
  induction h with
  | last => rfl
  | value => rfl
  | switch _ _ _ _ _ _ ih => simpa using ih

theorem spells_tokens (ha : c.additional = none) (hd : ¬ Enabled c Style.allowLongDisguise) {tok : Str} {items : List Item} (h : Spells c tok items) :
    items.flatMap (·.tokens) = [tok] := by
  cases h with
  | additional f hf => rw [ha] at hf; cases hf
  | disguised lead name d hu hs => exact absurd hs hd
  | disguisedEq lead name v d hu hs => exact absurd hs hd
  | short _ _ _ _ _ _ _ _ hg => exact group_tokens hg
  | _ => rfl

theorem completes_tokens {i : Item} {taken : List Str} {o : Opt} (h : Completes c i taken o) : o.originalTokens = i.tokens ++ taken := by
  cases h <;> simp

theorem completesAll_tokens {is : List Item} {taken : List Str} {os : List Opt} (h : CompletesAll c is taken os) :
    os.flatMap (·.originalTokens) = is.flatMap (·.tokens) ++ taken := by
  induction h with
  | one h => simpa using completes_tokens h
  | cons h _ ih => simp [completes_tokens h, ih]

/-- An option that was recognised. -/
def Recognised (o : Opt) : Prop := o.stringKey ≠ [] ∧ o.unregistered = false ∧ o.positionKey = -1

instance (o : Opt) : Decidable (Recognised o) := by unfold Recognised; infer_instance

/-- A piece of the command line that is read on its own: tokens, what they are read as, and what that becomes. -/
structure Piece where
  tokens : List Str
  read : List Opt
  result : List Opt

/-- A piece as it should be: something to pass on, or recognised options. -/
structure Piece.Sound (c : Cmdline) (p : Piece) : Prop where
  reads : Reads c p.tokens p.read
  gathers : Gathers c p.read p.result
  terminator : ['-', '-'] ∉ p.tokens
  original : p.result.flatMap (·.originalTokens) = p.tokens
  kind : (∃ o, p.read = [o] ∧ p.result = [o] ∧ ¬ Recognised o ∧ (o.stringKey = [] ∨ Unknown c o.stringKey)) ∨
    (∀ o ∈ p.result, Recognised o) ∧ ∃ o os, p.read = o :: os ∧ o.stringKey ≠ []

theorem gathers_cons_nil {o : Opt} {os os' : List Opt} (h : Gathers c (o :: os) os') (hk : o.stringKey = []) :
    ∃ rest, os' = o :: rest ∧ Gathers c os rest := by
  generalize e : o :: os = xs at h
  cases h with
  | nil => cases e
  | positional h t => cases e; exact ⟨_, rfl, t⟩
  | keep h => cases e; exact absurd hk h
  | take d h => cases e; exact absurd hk h

theorem gathers_cons_unknown {o : Opt} {os os' : List Opt} (h : Gathers c (o :: os) os') (hk : o.stringKey ≠ []) (hu : Unknown c o.stringKey) :
    ∃ rest, os' = o :: rest ∧ Gathers c os rest := by
  generalize e : o :: os = xs at h
  cases h with
  | nil => cases e
  | positional h t => cases e; exact absurd h hk
  | keep h _ t => cases e; exact ⟨_, rfl, t⟩
  | take d h hd => cases e; exact absurd hu fun hu => denotes_not_unknown hd hu

/-- Named options in a row: only the last one can take positional arguments. -/
theorem gathers_named_split {xs : List Opt} (hne : xs ≠ []) (hr : ∀ o ∈ xs, Recognised o) :
    ∀ {more os' : List Opt}, Gathers c (xs ++ more) os' → ∃ ps more' ys ys', more = ps ++ more' ∧ (∀ p ∈ ps, Spec.Loose p) ∧ os' = ys ++ ys' ∧
      Gathers c (xs ++ ps) ys ∧ Gathers c more' ys' ∧ (∀ o ∈ ys, Recognised o) ∧
      ys.flatMap (·.originalTokens) = (xs ++ ps).flatMap (·.originalTokens) := by
  induction xs with
  | nil => exact absurd rfl hne
  | cons o xs ih =>
    intro more os' h
    have ho := hr o (by simp)
    cases xs with
    | nil =>
      generalize e : [o] ++ more = zs at h
      cases h with
      | nil => cases e
      | positional h => cases e; exact absurd h ho.1
      | @keep _ _ os' h hk t =>
        cases e
        exact ⟨[], more, [o], os', rfl, by simp, rfl, .keep h hk .nil, t, by simpa using ho, by simp⟩
      | @take _ ps more' os' d h hd hroom hp hmax t =>
        cases e
        refine ⟨ps, more', [_], os', rfl, hp, rfl, ?_, t, ?_, ?_⟩
        · have := Gathers.take (c := c) (os := []) d h hd hroom hp (hmax.imp id fun hm => ⟨hm.1, by simp⟩) .nil
          simpa using this
        · simpa using ⟨ho.1, ho.2.1, ho.2.2⟩
        · simp
    | cons o2 xs =>
      have ho2 := hr o2 (by simp)
      have ih := @ih (by simp) fun q hq => hr q (by simp [hq])
      generalize e : o :: o2 :: xs ++ more = zs at h
      cases h with
      | nil => cases e
      | positional h => cases e; exact absurd h ho.1
      | @keep _ _ os' h hk t =>
        cases e
        obtain ⟨ps, more', ys, ys', e1, h1, rfl, h2, h3, h4, h5⟩ := ih t
        exact ⟨ps, more', o :: ys, ys', e1, h1, rfl, .keep h hk h2, h3, by simpa using ⟨ho, h4⟩, by simpa using h5⟩
      | @take _ ps more' os' d h hd hroom hp hmax t =>
        cases ps with
        | cons p ps =>
          simp only [List.cons_append, List.cons.injEq] at e
          exact absurd (hp p (by simp)).1 (e.2.1 ▸ ho2.1)
        | nil =>
          simp only [List.cons_append, List.cons.injEq, List.nil_append] at e
          obtain ⟨rfl, rfl⟩ := e
          obtain ⟨ps, more', ys, ys', e1, h1, rfl, h2, h3, h4, h5⟩ := ih t
          refine ⟨ps, more', o :: ys, ys', e1, h1, by simp, ?_, h3, by simpa using ⟨ho, h4⟩, by simpa using h5⟩
          have := Gathers.take (c := c) (ps := []) d h hd hroom (by simp) (hmax.imp id fun hm => ⟨hm.1, ?_⟩) h2
          · simpa using this
          · intro q hq
            simp at hq
            exact hq ▸ fun hl => ho2.1 hl.1

theorem completesAll_single {is : List Item} {taken : List Str} {os : List Opt} (h : CompletesAll c is taken os) (hl : is.length = 1) :
    ∃ i o, is = [i] ∧ os = [o] ∧ Completes c i taken o := by
  cases h with
  | one h => exact ⟨_, _, rfl, rfl, h⟩
  | cons h t =>
    have := completesAll_ne t
    simp at hl
    exact absurd hl this

/-- Loose positional arguments are single tokens. -/
theorem reads_loose_split (hne : ∀ d ∈ c.desc, ∀ name, name ≠ [] → reportedKey d name ≠ []) (ha : c.additional = none)
    (hd : ¬ Enabled c Style.allowLongDisguise) {ps : List Opt} (hp : ∀ p ∈ ps, Spec.Loose p) :
    ∀ {args : List Str} {more : List Opt}, Reads c args (ps ++ more) → ∃ ts rest, args = ts ++ rest ∧ Reads c ts ps ∧ Reads c rest more ∧
      ps.flatMap (·.originalTokens) = ts := by
  induction ps with
  | nil => intro args more h; exact ⟨[], args, rfl, .nil, h, rfl⟩
  | cons p ps ih =>
    intro args more h
    have ih := @ih fun q hq => hp q (by simp [hq])
    have hl := hp p (by simp)
    generalize e : p :: ps ++ more = zs at h
    cases h with
    | nil => cases e
    | @plain tok rest os h hd t =>
      cases e
      obtain ⟨ts, rest, rfl, h1, h2, h3⟩ := ih t
      exact ⟨tok :: ts, rest, rfl, .plain h hd h1, h2, by rw [List.flatMap_cons, h3]; rfl⟩
    | @terminator rest h =>
      cases rest with
      | nil => cases e
      | cons t rest =>
        simp only [List.cons_append, List.map_cons, List.cons.injEq] at e
        exact absurd (by rw [e.1]) hl.2
    | @option tok items taken os rest more' hs hc t =>
      have h1 : items.length = 1 := by
        rcases spells_unnamed hs with h | h
        · exfalso
          obtain ⟨o, os1, rfl⟩ : ∃ o os1, os = o :: os1 := by
            cases os with
            | nil => exact absurd (completesAll_length hc).symm (by simpa using spells_ne hs)
            | cons o os => exact ⟨_, _, rfl⟩
          simp only [List.cons_append, List.cons.injEq] at e
          obtain ⟨i, hi, t, hc⟩ := completesAll_mem hc p (by simp [e.1])
          exact h i hi ((completes_unnamed hne hc).1 hl.1)
        · exact h.1
      obtain ⟨i, o, rfl, rfl, hc1⟩ := completesAll_single hc h1
      cases e
      obtain ⟨ts, rest, rfl, h1, h2, h3⟩ := ih t
      refine ⟨tok :: taken ++ ts, rest, by simp, .option hs hc h1, h2, ?_⟩
      have e := completesAll_tokens hc
      rw [spells_tokens ha hd hs] at e
      rw [List.flatMap_cons, h3]
      simp at e
      rw [e]

/-- A command line falls into pieces. -/
theorem pieces (hne : ∀ d ∈ c.desc, ∀ name, name ≠ [] → reportedKey d name ≠ []) (ha : c.additional = none) (hd : ¬ Enabled c Style.allowLongDisguise) :
    ∀ (n : Nat) (args : List Str) (os os' : List Opt), os.length ≤ n → Reads c args os → Gathers c os os' → ['-', '-'] ∉ args →
      (∀ t ∈ args, ∀ items, Spells c t items → (∃ i ∈ items, Unknown c i.name) → items.length = 1) →
      ∃ bl : List Piece, (∀ p ∈ bl, p.Sound c) ∧ args = bl.flatMap (·.tokens) ∧ os' = bl.flatMap (·.result) := by
  intro n
  induction n with
  | zero =>
    intro args os os' hn hr hg hterm _
    obtain rfl : os = [] := List.length_eq_zero_iff.1 (by omega)
    have e := gathers_nil hg
    generalize e0 : ([] : List Opt) = zs at hr
    cases hr with
    | nil => exact ⟨[], by simp, rfl, e⟩
    | plain => cases e0
    | terminator => exact absurd (by simp) hterm
    | option hs hc t =>
      have hl := completesAll_length hc
      rw [eq_comm, List.append_eq_nil_iff] at e0
      rw [e0.1] at hl
      exact absurd (List.length_eq_zero_iff.1 hl.symm) (spells_ne hs)
  | succ n ih =>
    intro args os os' hn hr hg hterm hgroup
    cases hr with
    | nil => exact ⟨[], by simp, rfl, gathers_nil hg⟩
    | terminator => exact absurd (by simp) hterm
    | @plain tok rest os h h0 t =>
      obtain ⟨os2, rfl, hg2⟩ := gathers_cons_nil hg rfl
      obtain ⟨bl, h1, e1, e2⟩ := ih rest os os2 (by simp at hn; omega) t hg2 (fun hh => hterm (by simp [hh])) (fun q hq => hgroup q (by simp [hq]))
      refine ⟨⟨[tok], [{ value := [tok], originalTokens := [tok] }], [{ value := [tok], originalTokens := [tok] }]⟩ :: bl, ?_, by rw [List.flatMap_cons, ← e1]; rfl, by rw [List.flatMap_cons, ← e2]; rfl⟩
      intro p hp
      rcases List.mem_cons.1 hp with rfl | hp
      · exact ⟨.plain h h0 .nil, .positional rfl .nil, by simpa using Ne.symm h0, rfl, .inl ⟨_, rfl, rfl, fun hh => hh.1 rfl, .inl rfl⟩⟩
      · exact h1 p hp
    | @option tok items taken os rest more hs hc t =>
      have htok : os.flatMap (·.originalTokens) = tok :: taken := by
        rw [completesAll_tokens hc, spells_tokens ha hd hs]; rfl
      have hos : os ≠ [] := by
        intro e
        have := completesAll_length hc
        rw [e] at this
        exact spells_ne hs (List.length_eq_zero_iff.1 this.symm)
      by_cases hk : ∀ o ∈ os, Recognised o
      · obtain ⟨ps, more', ys, ys', rfl, hp, rfl, g1, g2, hrec, horig⟩ := gathers_named_split hos hk hg
        obtain ⟨ts, rest', rfl, r1, r2, r3⟩ := reads_loose_split hne ha hd hp t
        obtain ⟨bl, h1, e1, e2⟩ := ih rest' more' ys' (by
            have := List.length_pos_iff.2 hos
            simp only [List.length_append] at hn; omega) r2 g2
          (fun hh => hterm (by simp [hh])) (fun q hq => hgroup q (by simp [hq]))
        refine ⟨⟨tok :: taken ++ ts, os ++ ps, ys⟩ :: bl, ?_, by rw [List.flatMap_cons, ← e1]; simp, by rw [List.flatMap_cons, ← e2]⟩
        intro p hp'
        rcases List.mem_cons.1 hp' with rfl | hp'
        · refine ⟨.option hs hc r1, g1, fun hh => hterm ?_, ?_, .inr ⟨hrec, ?_⟩⟩
          · rw [← List.append_assoc]
            exact List.mem_append_left _ hh
          · show ys.flatMap _ = _
            rw [horig, List.flatMap_append, htok, r3]
          · cases os with
            | nil => exact absurd rfl hos
            | cons o os => exact ⟨o, os ++ ps, rfl, (hk o (by simp)).1⟩
        · exact h1 p hp'
      · have hknown : ∀ {i taken o}, Completes c i taken o → ¬ Recognised o → i.name = [] ∨ Unknown c i.name := by
          intro i taken o hc hnr
          cases hc with
          | nameless h => exact .inl h
          | unknown h hn hu => exact .inr hn
          | known d taken h hd => exact absurd ⟨hne d (denotes_mem hd) _ h, rfl, rfl⟩ hnr
        have hsingle : items.length = 1 := by
          obtain ⟨o, ho⟩ := Classical.not_forall.1 hk
          obtain ⟨ho, hnr⟩ := Classical.not_imp.1 ho
          obtain ⟨i, hi, taken', hc1⟩ := completesAll_mem hc o ho
          rcases hknown hc1 hnr with h | h
          · rcases spells_unnamed hs with hh | hh
            · exact absurd h (hh i hi)
            · exact hh.1
          · exact hgroup tok (by simp) items hs ⟨i, hi, h⟩
        obtain ⟨i, o, rfl, rfl, hc1⟩ := completesAll_single hc hsingle
        have hnr : ¬ Recognised o := fun h => hk (by simpa using h)
        have hko : o.stringKey = [] ∨ o.stringKey ≠ [] ∧ Unknown c o.stringKey := by
          cases hc1 with
          | nameless h => exact .inl rfl
          | unknown h hn' hu => exact .inr ⟨h, hn'⟩
          | known d taken h hd => exact absurd ⟨hne d (denotes_mem hd) _ h, rfl, rfl⟩ hnr
        have hg2 : ∃ os2, os' = o :: os2 ∧ Gathers c more os2 := by
          rcases hko with h | h
          · exact gathers_cons_nil hg h
          · exact gathers_cons_unknown hg h.1 h.2
        obtain ⟨os2, rfl, hg2⟩ := hg2
        obtain ⟨bl, h1, e1, e2⟩ := ih rest more os2 (by simp at hn; omega) t hg2 (fun hh => hterm (by simp [hh])) (fun q hq => hgroup q (by simp [hq]))
        refine ⟨⟨tok :: taken, [o], [o]⟩ :: bl, ?_, by rw [List.flatMap_cons, ← e1], by rw [List.flatMap_cons, ← e2]; rfl⟩
        intro p hp
        rcases List.mem_cons.1 hp with rfl | hp
        · refine ⟨by simpa using Reads.option hs hc .nil, ?_, fun hh => hterm (List.mem_append_left _ hh), htok,
            .inl ⟨o, rfl, rfl, hnr, hko.imp id (·.2)⟩⟩
          rcases hko with h | h
          · exact .positional h .nil
          · exact .keep h.1 (.inl h.2) .nil
        · exact h1 p hp

theorem forward_pieces {bl : List Piece} (h : ∀ p ∈ bl, p.Sound c) :
    Reads c (((bl.flatMap (·.result)).filter (¬ Recognised ·)).flatMap (·.originalTokens)) ((bl.flatMap (·.result)).filter (¬ Recognised ·)) ∧
      Gathers c ((bl.flatMap (·.result)).filter (¬ Recognised ·)) ((bl.flatMap (·.result)).filter (¬ Recognised ·)) := by
  induction bl with
  | nil => exact ⟨.nil, .nil⟩
  | cons p bl ih =>
    have hp := h p (by simp)
    obtain ⟨h1, h2⟩ := ih fun q hq => h q (by simp [hq])
    rw [List.flatMap_cons, List.filter_append]
    rcases hp.kind with ⟨o, er, eo, hn, hk⟩ | ⟨hr, _⟩
    · have ht := hp.original
      have hrd := hp.reads
      rw [eo] at ht ⊢
      rw [er] at hrd
      rw [List.filter_cons_of_pos (by simpa using hn), List.filter_nil, List.flatMap_append, ht]
      refine ⟨reads_append hrd hp.terminator h1, ?_⟩
      rcases hk with hk | hk
      · exact .positional hk h2
      · by_cases h0 : o.stringKey = []
        · exact .positional h0 h2
        · exact .keep h0 (.inl hk) h2
    · have : p.result.filter (¬ Recognised ·) = [] := by
        rw [List.filter_eq_nil_iff]
        intro o ho
        simpa using hr o ho
      rw [this]
      exact ⟨h1, h2⟩

theorem recognised_pieces (hne : ∀ d ∈ c.desc, ∀ name, name ≠ [] → reportedKey d name ≠ []) {bl : List Piece} (h : ∀ p ∈ bl, p.Sound c) :
    ∃ xs, Reads c (((bl.flatMap (·.result)).filter (Recognised ·)).flatMap (·.originalTokens)) xs ∧
      Gathers c xs ((bl.flatMap (·.result)).filter (Recognised ·)) ∧ ∀ o, xs.head? = some o → o.stringKey ≠ [] := by
  induction bl with
  | nil => exact ⟨[], .nil, .nil, by simp⟩
  | cons p bl ih =>
    have hp := h p (by simp)
    obtain ⟨xs, h1, h2, h3⟩ := ih fun q hq => h q (by simp [hq])
    rw [List.flatMap_cons, List.filter_append]
    rcases hp.kind with ⟨o, er, eo, hn, hk⟩ | ⟨hr, o, os, er, ho⟩
    · rw [eo, List.filter_cons_of_neg (by simpa using hn), List.filter_nil]
      exact ⟨xs, h1, h2, h3⟩
    · have : p.result.filter (Recognised ·) = p.result := by
        rw [List.filter_eq_self]
        intro o ho
        simpa using hr o ho
      rw [this, List.flatMap_append, hp.original]
      refine ⟨p.read ++ xs, reads_append hp.reads hp.terminator h1, gathers_append hp.gathers (reads_singles hne hp.reads).1 h2 ?_, ?_⟩
      · intro o q _ hq hk
        exact absurd hk (h3 q hq)
      · intro o' ho'
        rw [er] at ho'
        cases ho'
        exact ho

theorem labels_forward {n : Nat} {os res : List Opt} (h : Labels c n os res) (hw : ∀ o ∈ os, o.stringKey ≠ [] → o.positionKey = -1) :
    Labels c n (os.filter (¬ Recognised ·)) (res.filter fun o => o.unregistered ∨ o.positionKey ≠ -1) ∧
      collectUnrecognized .includePositional res = (os.filter (¬ Recognised ·)).flatMap (·.originalTokens) := by
  induction h with
  | nil => exact ⟨.nil, rfl⟩
  | @named n o os os' h t ih =>
    obtain ⟨h1, h2⟩ := ih fun q hq => hw q (by simp [hq])
    have ho := hw o (by simp) h
    rw [collectUnrecognized]
    by_cases hu : o.unregistered = true
    · rw [List.filter_cons_of_pos (by simp [Recognised, hu]), List.filter_cons_of_pos (by simp [hu]), if_pos (.inl hu), List.flatMap_cons, h2]
      exact ⟨.named h h1, rfl⟩
    · rw [List.filter_cons_of_neg (by simp [Recognised, hu, h, ho]), List.filter_cons_of_neg (by simp [hu, ho]), if_neg (by simp [hu, ho])]
      exact ⟨h1, h2⟩
  | @positional n o os os' name h hn t ih =>
    obtain ⟨h1, h2⟩ := ih fun q hq => hw q (by simp [hq])
    rw [collectUnrecognized, List.filter_cons_of_pos (by simp [Recognised, h]), List.filter_cons_of_pos (by simp), if_pos (.inr (by simp)), List.flatMap_cons, h2]
    exact ⟨.positional name h hn h1, rfl⟩

theorem labels_recognised {n : Nat} {os res : List Opt} (h : Labels c n os res) (hw : ∀ o ∈ os, o.stringKey ≠ [] → o.positionKey = -1) (m : Nat) :
    Labels c m (os.filter (Recognised ·)) (res.filter fun o => o.positionKey = -1 ∧ o.unregistered = false) ∧
      recognised res = (os.filter (Recognised ·)).flatMap (·.originalTokens) := by
  unfold recognised
  induction h with
  | nil => exact ⟨.nil, rfl⟩
  | @named n o os os' h t ih =>
    obtain ⟨h1, h2⟩ := ih fun q hq => hw q (by simp [hq])
    have ho := hw o (by simp) h
    by_cases hu : o.unregistered = true
    · rw [List.filter_cons_of_neg (by simp [Recognised, hu]), List.filter_cons_of_neg (by simp [hu])]
      exact ⟨h1, h2⟩
    · rw [List.filter_cons_of_pos (by simp [Recognised, hu, h, ho]), List.filter_cons_of_pos (by simp [hu, ho]), List.flatMap_cons, List.flatMap_cons, h2]
      exact ⟨.named h h1, rfl⟩
  | @positional n o os os' name h hn t ih =>
    obtain ⟨h1, h2⟩ := ih fun q hq => hw q (by simp [hq])
    rw [List.filter_cons_of_neg (by simp [Recognised, h]), List.filter_cons_of_neg (by simp)]
    exact ⟨h1, h2⟩

end Cmdline

theorem C89_parts {c : Cmdline} (hs : c.styleParser = none) (ha : c.additional = none) (hd : ¬ Enabled c Style.allowLongDisguise)
    (hne : ∀ d ∈ c.desc, ∀ name, name ≠ [] → reportedKey d name ≠ []) {args : List Str} (hlen : args.length < 2147483648) (hterm : ['-', '-'] ∉ args)
    (hgroup : ∀ t ∈ args, ∀ items, Spells c t items → (∃ i ∈ items, Unknown c i.name) → items.length = 1) {res : List Opt} (h : c.run args = .ok res) :
    c.run (collectUnrecognized .includePositional res) = .ok (res.filter fun o => o.unregistered ∨ o.positionKey ≠ -1) ∧
    c.run (recognised res) = .ok (res.filter fun o => o.positionKey = -1 ∧ o.unregistered = false) := by
  obtain ⟨os, os', h1, h2, h3⟩ := (C61_grammar c hs hne args hlen res).1 h
  obtain ⟨bl, hb, ea, eo⟩ := Cmdline.pieces hne ha hd _ args os os' (Nat.le_refl _) h1 h2 hterm hgroup
  have hw := Cmdline.gathers_position h2 (Cmdline.reads_loose h1 hterm)
  have etok : args = os'.flatMap (·.originalTokens) := by
    rw [ea, eo, List.flatMap_assoc]
    clear ea eo
    induction bl with
    | nil => rfl
    | cons p bl ih => rw [List.flatMap_cons, List.flatMap_cons, (hb p (by simp)).original, ih fun q hq => hb q (by simp [hq])]
  have hsub : ∀ q : Opt → Bool, ((os'.filter q).flatMap (·.originalTokens)).length < 2147483648 := by
    intro q
    refine Nat.lt_of_le_of_lt ?_ hlen
    rw [etok]
    clear etok eo h2 h3 hw
    induction os' with
    | nil => exact Nat.le_refl _
    | cons o os' ih =>
      rw [List.filter_cons]
      split <;> simp only [List.flatMap_cons, List.length_append] <;> omega
  constructor
  · obtain ⟨l1, l2⟩ := Cmdline.labels_forward h3 fun o ho _ => hw o ho
    rw [l2]
    obtain ⟨f1, f2⟩ := Cmdline.forward_pieces hb
    rw [← eo] at f1 f2
    exact (C61_grammar c hs hne _ (hsub _) _).2 ⟨_, _, f1, f2, l1⟩
  · obtain ⟨l1, l2⟩ := Cmdline.labels_recognised h3 (fun o ho _ => hw o ho) 0
    rw [l2]
    obtain ⟨xs, f1, f2, _⟩ := Cmdline.recognised_pieces hne hb
    rw [← eo] at f1 f2
    exact (C61_grammar c hs hne _ (hsub _) _).2 ⟨_, _, f1, f2, l1⟩

/-- **C89, partial**, what is passed on: reading again what `collect_unrecognized` returns finds the same unknown options and positional arguments, under
the same names and numbers, and nothing that was recognised before. -/
theorem C89_forwarded_partial (c : Cmdline) (hs : c.styleParser = none) (ha : c.additional = none) (hd : ¬ Enabled c Style.allowLongDisguise)
    (hne : ∀ d ∈ c.desc, ∀ name, name ≠ [] → reportedKey d name ≠ []) (args : List Str) (hlen : args.length < 2147483648) (hterm : ['-', '-'] ∉ args)
    (hgroup : ∀ t ∈ args, ∀ items, Spells c t items → (∃ i ∈ items, Unknown c i.name) → items.length = 1) (res : List Opt) (h : c.run args = .ok res) :
    c.run (collectUnrecognized .includePositional res) = .ok (res.filter fun o => o.unregistered ∨ o.positionKey ≠ -1) :=
  (C89_parts hs ha hd hne hlen hterm hgroup h).1

/-- **C89, partial**, what is recognised: the tokens of the recognised options, without the rest of the command line, are read as the same options. -/
theorem C89_recognised_partial (c : Cmdline) (hs : c.styleParser = none) (ha : c.additional = none) (hd : ¬ Enabled c Style.allowLongDisguise)
    (hne : ∀ d ∈ c.desc, ∀ name, name ≠ [] → reportedKey d name ≠ []) (args : List Str) (hlen : args.length < 2147483648) (hterm : ['-', '-'] ∉ args)
    (hgroup : ∀ t ∈ args, ∀ items, Spells c t items → (∃ i ∈ items, Unknown c i.name) → items.length = 1) (res : List Opt) (h : c.run args = .ok res) :
    c.run (recognised res) = .ok (res.filter fun o => o.positionKey = -1 ∧ o.unregistered = false) :=
  (C89_parts hs ha hd hne hlen hterm hgroup h).2

/-- C89 as claimed: what is passed on holds no option that is recognised. -/
def C89_claim : Prop :=
  ∀ (c : Cmdline) (args : List Str) (res res' : List Opt), c.styleParser = none → c.additional = none → checkStyle c.style = .ok () → c.run args = .ok res →
    c.run (collectUnrecognized .includePositional res) = .ok res' → ∀ o ∈ res', o.unregistered = true ∨ o.positionKey ≠ -1

/-- A switch, an option with a value and one that takes many; others are passed on. -/
def forwardExample : Cmdline :=
  { desc := [Test.od "verbose,v" Test.unt, Test.od "out,o" (Test.sem Test.vstr), Test.od "in" (Test.sem { Test.vvec with multitoken := true })]
    allowUnregistered := true }

/-- **C89 is false in the code**: the terminator is not passed on, so an argument protected by it is an option to the next reader. -/
theorem C89_negation : ¬ C89_claim := by
  intro h
  have h1 : forwardExample.run [Test.L "--", Test.L "--verbose"] =
      .ok [{ positionKey := 0, value := [Test.L "--verbose"], originalTokens := [Test.L "--verbose"] }] := by rfl
  have h2 : forwardExample.run [Test.L "--verbose"] = .ok [{ stringKey := Test.L "verbose", originalTokens := [Test.L "--verbose"] }] := by rfl
  have := h forwardExample _ _ _ rfl rfl rfl h1 h2 _ (List.mem_singleton.2 rfl)
  exact absurd this (by decide)

/-- Nor is a group of short options taken apart: `-vx`, with a known switch `-v` and an unknown `-x`, gives `-v` to both readers. -/
theorem C89_negation_group : ¬ C89_claim := by
  intro h
  have h1 : forwardExample.run [Test.L "-vx"] =
      .ok [{ stringKey := Test.L "verbose" }, { stringKey := Test.L "-x", originalTokens := [Test.L "-vx"], unregistered := true }] := by rfl
  have := h forwardExample _ _ _ rfl rfl rfl h1 h1 _ (List.mem_cons_self ..)
  exact absurd this (by decide)

/-- Without the other options, the many values of `--in` end at the same place. -/
example : ∃ r, forwardExample.run [Test.L "--in", Test.L "a", Test.L "b", Test.L "-x", Test.L "c", Test.L "-vo", Test.L "d", Test.L "--level=3", Test.L "e"] = .ok r ∧
    collectUnrecognized .includePositional r = [Test.L "-x", Test.L "c", Test.L "--level=3", Test.L "e"] ∧
    recognised r = [Test.L "--in", Test.L "a", Test.L "b", Test.L "-vo", Test.L "d"] ∧
    (forwardExample.run [Test.L "-x", Test.L "c", Test.L "--level=3", Test.L "e"]).map (·.map fun o => (o.stringKey, o.positionKey, o.value)) =
      .ok [(Test.L "-x", -1, []), ([], 0, [Test.L "c"]), (Test.L "level", -1, [Test.L "3"]), ([], 1, [Test.L "e"])] ∧
    (forwardExample.run [Test.L "--in", Test.L "a", Test.L "b", Test.L "-vo", Test.L "d"]).map (·.map fun o => (o.stringKey, o.value)) =
      .ok [(Test.L "in", [Test.L "a", Test.L "b"]), (Test.L "verbose", []), (Test.L "out", [Test.L "d"])] := ⟨_, rfl, rfl, rfl, rfl, rfl⟩

/-- The theorems apply to this command line, which has a group of known options in it. -/
example (r : List Opt) (h : forwardExample.run [Test.L "-x", Test.L "c", Test.L "-vo", Test.L "d", Test.L "--level=3", Test.L "e"] = .ok r) :
    forwardExample.run (collectUnrecognized .includePositional r) = .ok (r.filter fun o => o.unregistered ∨ o.positionKey ≠ -1) := by
  refine C89_forwarded_partial forwardExample rfl rfl (by unfold Enabled; decide)
    (keys_nonempty _ (by intro d hd; simp only [forwardExample, List.mem_cons, List.not_mem_nil, or_false] at hd; rcases hd with rfl | rfl | rfl <;> decide))
    _ (by decide) (by decide) ?_ r h
  intro t ht items hs hu
  have hf := (forwardExample.front_iff t _).2 (.inr ⟨items, hs, rfl⟩)
  have one : ∀ o : Opt, forwardExample.front t = .ok [o] → items.length = 1 := by
    intro o ho
    rw [ho, Except.ok.injEq] at hf
    have := congrArg List.length hf
    simpa using this.symm
  have none : forwardExample.front t = .ok [] → items.length = 1 := by
    intro ho
    rw [ho, Except.ok.injEq] at hf
    exact absurd (List.map_eq_nil_iff.1 hf.symm) (Cmdline.spells_ne hs)
  simp only [List.mem_cons, List.not_mem_nil, or_false] at ht
  rcases ht with rfl | rfl | rfl | rfl | rfl | rfl
  · exact one _ rfl
  · exact none rfl
  · obtain ⟨i, hi, hu⟩ := hu
    have e : forwardExample.front (Test.L "-vo") = .ok [{ stringKey := Test.L "-v" }, { stringKey := Test.L "-o", originalTokens := [Test.L "-vo"] }] := rfl
    rw [e, Except.ok.injEq] at hf
    have := List.mem_map_of_mem (f := Item.toOpt) hi
    rw [← hf] at this
    simp only [List.mem_cons, List.not_mem_nil, or_false] at this
    rcases this with e | e
    · have : i.name = Test.L "-v" := congrArg Opt.stringKey e
      rw [this] at hu
      exact absurd (.inr rfl) (hu (Test.od "verbose,v" Test.unt) (by simp [forwardExample])).1
    · have : i.name = Test.L "-o" := congrArg Opt.stringKey e
      rw [this] at hu
      exact absurd (.inr rfl) (hu (Test.od "out,o" (Test.sem Test.vstr)) (by simp [forwardExample])).1
  · exact none rfl
  · exact one _ rfl
  · exact none rfl

end PO
