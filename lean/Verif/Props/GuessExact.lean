import Verif.Props.Guess
/-
C75: exactly which command lines guessing changes.
-/
namespace PO
open Spec

/-- A name that guessing takes for another one: no declared option has it, but a long name of a declared option begins with it, and
it does not belong to a family of that option. -/
def Spec.Tempting (c : Cmdline) (k : Str) : Prop :=
  (∀ d ∈ c.desc, ¬ Exact d k (active c.style Style.longCaseInsensitive) (active c.style Style.shortCaseInsensitive)) ∧
    ∃ d ∈ c.desc, ¬ Approximate d k false (active c.style Style.longCaseInsensitive) ∧ Approximate d k true (active c.style Style.longCaseInsensitive)

namespace Guess

variable {c : Cmdline}

theorem approximate_mono {d : OptionDesc} {n : Str} {b : Bool} (h : Approximate d n false b) : Approximate d n true b := by
  obtain ⟨m, hm, h0, ⟨h1, _⟩ | h2⟩ := h
  · cases h1
  · exact ⟨m, hm, h0, .inr h2⟩

theorem on : active c.guessing.style Style.allowGuessing = true := by
  unfold active Cmdline.guessing
  simp only [bne_iff_ne]
  rw [Nat.and_or_distrib_right]
  intro h
  rw [Nat.or_eq_zero_iff] at h
  exact absurd h.2 (by decide)

theorem off (hg : ¬ Enabled c Style.allowGuessing) : active c.style Style.allowGuessing = false := by
  unfold Enabled at hg
  simpa using hg

theorem same_approximate {n : Str} (ht : ¬ Tempting c n)
    (he : ∀ d ∈ c.desc, ¬ Exact d n (active c.style Style.longCaseInsensitive) (active c.style Style.shortCaseInsensitive)) {d : OptionDesc} (hd : d ∈ c.desc) :
    Approximate d n true (active c.style Style.longCaseInsensitive) ↔ Approximate d n false (active c.style Style.longCaseInsensitive) := by
  refine ⟨fun h => ?_, approximate_mono⟩
  refine Classical.byContradiction fun hno => ht ⟨he, d, hd, hno, h⟩

theorem denotes' (hg : ¬ Enabled c Style.allowGuessing) {n : Str} {d : OptionDesc} (hd : Denotes c n d) (ht : ¬ Tempting c n) :
    Denotes c.guessing n d := by
  unfold Denotes at hd ⊢
  dsimp only at hd ⊢
  rw [li, si, on]
  rw [off hg] at hd
  rcases hd with hd | ⟨h0, hd⟩
  · exact .inl hd
  · refine .inr ⟨h0, ?_⟩
    rw [← hd]
    show approximates c.desc n true _ _ = _
    unfold approximates
    refine List.filter_congr fun e he => ?_
    have hx : ∀ d ∈ c.desc, ¬ Exact d n (active c.style Style.longCaseInsensitive) (active c.style Style.shortCaseInsensitive) := by
      intro d hd hh
      have : d ∈ exacts c.desc n (active c.style Style.longCaseInsensitive) (active c.style Style.shortCaseInsensitive) := by
        unfold exacts
        rw [List.mem_filter]
        exact ⟨hd, by simpa using hh⟩
      rw [h0] at this
      cases this
    simp only [same_approximate ht hx he]

theorem unknown' (hg : ¬ Enabled c Style.allowGuessing) {n : Str} (hu : Unknown c n) (ht : ¬ Tempting c n) : Unknown c.guessing n := by
  intro d hd
  rw [li, si, on]
  have hx := fun d hd => (hu d hd).1
  refine ⟨hx d hd, ?_⟩
  rw [same_approximate ht hx hd]
  have := (hu d hd).2
  rwa [off hg] at this

/-- A name that is tempting and has a meaning with guessing has none without. -/
theorem unknown_of_tempting {n : Str} {d : OptionDesc} (ht : Tempting c n) (hd : Denotes c.guessing n d)
    (hg : ¬ Enabled c Style.allowGuessing) : Unknown c n := by
  obtain ⟨hx, e, he, h1, h2⟩ := ht
  have ha : approximates c.desc n true (active c.style Style.longCaseInsensitive) (active c.style Style.shortCaseInsensitive) = [d] := by
    unfold Denotes at hd
    dsimp only at hd
    rw [li, si, on] at hd
    rcases hd with hd | hd
    · have : d ∈ exacts c.desc n (active c.style Style.longCaseInsensitive) (active c.style Style.shortCaseInsensitive) := by
        rw [show c.desc = c.guessing.desc from rfl, hd]
        simp
      unfold exacts at this
      rw [List.mem_filter] at this
      exact absurd (by simpa using this.2) (hx d this.1)
    · exact hd.2
  have hin : ∀ y ∈ c.desc, Approximate y n true (active c.style Style.longCaseInsensitive) → y = d := by
    intro y hy hay
    have : y ∈ approximates c.desc n true (active c.style Style.longCaseInsensitive) (active c.style Style.shortCaseInsensitive) := by
      unfold approximates
      rw [List.mem_filter]
      exact ⟨hy, by simpa using ⟨hx y hy, hay⟩⟩
    rw [ha] at this
    simpa using this
  intro y hy
  refine ⟨hx y hy, ?_⟩
  rw [off hg]
  intro hay
  have e1 := hin y hy (approximate_mono hay)
  have e2 := hin e he h2
  rw [e1, ← e2] at hay
  exact h1 hay

/-- Names without a dash or slash at the beginning; an option of which a name is a family is reported as it was written. -/
structure Usual (c : Cmdline) : Prop where
  star : ∀ d ∈ c.desc, ∀ n ∈ d.longNames, '*' ∈ n → ∀ m, d.longNames.head? = some m → '*' ∈ m
  lead : ∀ d ∈ c.desc, ∀ n ∈ d.longNames, n.head? ≠ some '-' ∧ n.head? ≠ some '/'
  short : ∀ d ∈ c.desc, d.shortName = [] ∨ d.shortName.head? = some '-'

theorem not_tempting_lead (h : Usual c) {t : Str} {x : Char} (hx : x = '-' ∨ x = '/') : ¬ Tempting c (x :: t) := by
  rintro ⟨_, d, hd, hno, m, hm, h0, ⟨_, h3⟩ | h4⟩
  · have hxl : x.toLower = x := by rcases hx with rfl | rfl <;> decide
    have hx97 : x.toNat < 97 := by rcases hx with rfl | rfl <;> decide
    rw [fold_cons hxl] at h3
    have hh : (fold (active c.style Style.longCaseInsensitive) m).head? = some x := by
      obtain ⟨r, hr⟩ := h3
      rw [← hr]
      rfl
    have := head_fold hx97 hh
    have ht := h.lead d hd m hm
    rcases hx with rfl | rfl
    · exact ht.1 this
    · exact ht.2 this
  · exact hno ⟨m, hm, h0, .inr h4⟩

/-- What is reported under a name that is tempting was written so. -/
theorem written (h : Usual c) {d : OptionDesc} (hd : d ∈ c.desc) {n : Str} (h0 : reportedKey d n ≠ []) (ht : Tempting c (reportedKey d n)) :
    reportedKey d n = n := by
  have hx := ht.1 d hd
  unfold reportedKey at h0 ht hx ⊢
  cases hl : d.longNames.head? with
  | none =>
    rw [hl] at h0 ht
    dsimp only at h0 ht
    exfalso
    rcases h.short d hd with hs | hs
    · exact h0 hs
    · cases hsn : d.shortName with
      | nil => exact h0 hsn
      | cons x t =>
        rw [hsn] at hs ht
        simp only [List.head?_cons, Option.some.injEq] at hs
        exact not_tempting_lead h (.inl hs) ht
  | some m =>
    rw [hl] at h0 hx
    dsimp only at h0 hx ⊢
    by_cases hs : '*' ∈ m
    · rw [if_pos hs]
    · rw [if_neg hs] at h0 hx
      exact absurd (.inl ⟨m, List.mem_of_mem_head? hl, h0, rfl⟩) hx

theorem takeable' (h : Usual c) (hg : ¬ Enabled c Style.allowGuessing) (ha : c.additional = none) (hn : ¬ Enabled c Style.allowLongDisguise)
    {v : Str} (ht : Takeable c v) : Takeable c.guessing v := by
  rcases ht with ht | ⟨⟨items, hs⟩, hu⟩
  · exact .inl (plain hn ht)
  · obtain ⟨x, t, rfl, hx⟩ := spells_lead ha hs
    exact .inr ⟨⟨items, spells hn hs⟩, unknown' hg hu (not_tempting_lead h hx)⟩

theorem completes' (h : Usual c) (hg : ¬ Enabled c Style.allowGuessing) (ha : c.additional = none) (hn : ¬ Enabled c Style.allowLongDisguise)
    {i : Item} {taken : List Str} {o : Opt} (hc : Completes c i taken o) (ht : o.stringKey ≠ [] → ¬ Tempting c o.stringKey) :
    Completes c.guessing i taken o := by
  cases hc with
  | nameless h => exact .nameless h
  | unknown h0 hu hr => exact .unknown h0 (unknown' hg hu (ht h0)) hr
  | known d taken h0 hd hlen htake hs =>
    refine .known d taken h0 ?_ hlen (fun v hv => takeable' h hg ha hn (htake v hv)) hs
    have hmem := Cmdline.denotes_mem hd
    by_cases hi : Tempting c i.name
    · have hd' := hd
      unfold Denotes at hd'
      dsimp only at hd'
      rw [off hg] at hd'
      have hap : Approximate d i.name false (active c.style Style.longCaseInsensitive) := by
        rcases hd' with he | ⟨_, he⟩
        · have : d ∈ exacts c.desc i.name (active c.style Style.longCaseInsensitive) (active c.style Style.shortCaseInsensitive) := by
            rw [he]; simp
          unfold exacts at this
          rw [List.mem_filter] at this
          exact absurd (by simpa using this.2) (hi.1 d this.1)
        · have : d ∈ approximates c.desc i.name false (active c.style Style.longCaseInsensitive) (active c.style Style.shortCaseInsensitive) := by
            rw [he]; simp
          unfold approximates at this
          rw [List.mem_filter, decide_eq_true_eq] at this
          exact this.2.2
      obtain ⟨m, hm, _, ⟨hf, _⟩ | ⟨stem, e1, _⟩⟩ := hap
      · cases hf
      · have hstar : '*' ∈ m := mem_fold (x := '*') (b := active c.style Style.longCaseInsensitive) (by decide) (by rw [e1]; simp)
        have hk : reportedKey d i.name = i.name := by
          unfold reportedKey
          cases hl : d.longNames.head? with
          | none =>
            rw [List.head?_eq_none_iff] at hl
            rw [hl] at hm
            cases hm
          | some f =>
            dsimp only
            rw [if_pos (h.star d hmem m hm hstar f hl)]
        dsimp only at ht
        rw [hk] at ht
        exact absurd hi (ht h0)
    · exact denotes' hg hd hi

theorem completesAll' (h : Usual c) (hg : ¬ Enabled c Style.allowGuessing) (ha : c.additional = none) (hn : ¬ Enabled c Style.allowLongDisguise)
    {is : List Item} {taken : List Str} {os : List Opt} (hc : CompletesAll c is taken os)
    (ht : ∀ o ∈ os, o.stringKey ≠ [] → ¬ Tempting c o.stringKey) : CompletesAll c.guessing is taken os := by
  induction hc with
  | one hc => exact .one (completes' h hg ha hn hc (ht _ (by simp)))
  | cons hc t ih => exact .cons (completes' h hg ha hn hc (ht _ (by simp))) (ih fun o ho => ht o (by simp [ho]))

theorem reads' (h : Usual c) (hg : ¬ Enabled c Style.allowGuessing) (ha : c.additional = none) (hn : ¬ Enabled c Style.allowLongDisguise)
    {args : List Str} {os : List Opt} (hc : Reads c args os) (ht : ∀ o ∈ os, o.stringKey ≠ [] → ¬ Tempting c o.stringKey) :
    Reads c.guessing args os := by
  induction hc with
  | nil => exact .nil
  | plain hp hd t ih => exact .plain (plain hn hp) hd (ih fun o ho => ht o (by simp [ho]))
  | terminator hu => exact .terminator hu
  | option hs hc t ih =>
    exact .option (spells hn hs) (completesAll' h hg ha hn hc fun o ho => ht o (by simp [ho])) (ih fun o ho => ht o (by simp [ho]))

theorem gathers' (hg : ¬ Enabled c Style.allowGuessing) {os os' : List Opt} (hG : Gathers c os os')
    (ht : ∀ o ∈ os, o.stringKey ≠ [] → ¬ Tempting c o.stringKey) : Gathers c.guessing os os' := by
  induction hG with
  | nil => exact .nil
  | positional h0 t ih => exact .positional h0 (ih fun o ho => ht o (by simp [ho]))
  | keep h0 hr t ih =>
    refine .keep h0 ?_ (ih fun o ho => ht o (by simp [ho]))
    rcases hr with hr | ⟨d, hd, hr⟩
    · exact .inl (unknown' hg hr (ht _ (by simp) h0))
    · exact .inr ⟨d, denotes' hg hd (ht _ (by simp) h0), hr⟩
  | take d h0 hd hr hp hmax t ih =>
    exact .take d h0 (denotes' hg hd (ht _ (by simp) h0)) hr hp hmax (ih fun o ho => ht o (by simp [ho]))

/-- The options that were given by name, and whether they were unregistered. -/
def marks (os : List Opt) : List (Str × Bool) :=
  os.filterMap fun o => if o.positionKey = -1 ∧ o.stringKey ≠ [] then some (o.stringKey, o.unregistered) else none

theorem mem_marks {os : List Opt} {k : Str} {b : Bool} :
    (k, b) ∈ marks os ↔ ∃ o ∈ os, o.positionKey = -1 ∧ o.stringKey ≠ [] ∧ o.stringKey = k ∧ o.unregistered = b := by
  unfold marks
  rw [List.mem_filterMap]
  constructor
  · rintro ⟨o, ho, h⟩
    split at h
    · rename_i hh
      simp only [Option.some.injEq, Prod.mk.injEq] at h
      exact ⟨o, ho, hh.1, hh.2, h.1, h.2⟩
    · cases h
  · rintro ⟨o, ho, h1, h2, h3, h4⟩
    exact ⟨o, ho, by rw [if_pos ⟨h1, h2⟩, h3, h4]⟩

theorem gathers_marks {os os' : List Opt} (hG : Gathers c os os') : marks os' = marks os := by
  unfold marks at *
  induction hG with
  | nil => rfl
  | positional h0 t ih => rw [List.filterMap_cons, List.filterMap_cons, ih]
  | keep h0 hr t ih => rw [List.filterMap_cons, List.filterMap_cons, ih]
  | @take o ps os os' d h0 hd hr hp hmax t ih =>
    have hps : ps.filterMap (fun o => if o.positionKey = -1 ∧ o.stringKey ≠ [] then some (o.stringKey, o.unregistered) else none) = [] :=
      List.filterMap_eq_nil_iff.2 fun p h => by rw [if_neg fun hh => hh.2 (hp p h).1]
    rw [List.filterMap_cons, List.filterMap_cons, List.filterMap_append, ih, hps, List.nil_append]

theorem labels_marks {n : Nat} {os res : List Opt} (hL : Labels c n os res) : marks res = marks os := by
  unfold marks at *
  induction hL with
  | nil => rfl
  | named h t ih => rw [List.filterMap_cons, List.filterMap_cons, ih]
  | positional name h hn t ih =>
    rw [List.filterMap_cons, List.filterMap_cons, ih]
    rw [if_neg (fun hh => absurd hh.1 (by dsimp only; omega)), if_neg (fun hh => hh.2 h)]

/-- Where an option that is reported under a name comes from. -/
theorem reads_origin {args : List Str} {os : List Opt} (hc : Reads c args os) : ∀ o ∈ os, o.stringKey ≠ [] →
    o.positionKey = -1 ∧ (o.unregistered = true ∧ Unknown c o.stringKey ∨
      o.unregistered = false ∧ ∃ d n, Denotes c n d ∧ o.stringKey = reportedKey d n) := by
  have hcomp : ∀ {i taken o}, Completes c i taken o → o.stringKey ≠ [] →
      o.positionKey = -1 ∧ (o.unregistered = true ∧ Unknown c o.stringKey ∨
        o.unregistered = false ∧ ∃ d n, Denotes c n d ∧ o.stringKey = reportedKey d n) := by
    intro i taken o hc h0
    cases hc with
    | nameless h => exact absurd rfl h0
    | unknown h hn hx => exact ⟨rfl, .inl ⟨rfl, hn⟩⟩
    | known d taken hi hd hlen htake hs => exact ⟨rfl, .inr ⟨rfl, d, i.name, hd, rfl⟩⟩
  induction hc with
  | nil => nofun
  | plain hp hd t ih =>
    intro o ho h0
    rcases List.mem_cons.1 ho with rfl | ho
    · exact absurd rfl h0
    · exact ih o ho h0
  | terminator hu =>
    intro o ho h0
    obtain ⟨a, _, rfl⟩ := List.mem_map.1 ho
    exact absurd rfl h0
  | option hs hc t ih =>
    intro o ho h0
    rcases List.mem_append.1 ho with ho | ho
    · obtain ⟨i, _, taken', hc'⟩ := Cmdline.completesAll_mem hc o ho
      exact hcomp hc' h0
    · exact ih o ho h0

end Guess

/-- **C75, exactly:** a command line that is accepted without guessing is read the same with guessing if and only if no option of the
result is reported under a name that guessing takes for another one. (There is no additional parser, disguised long options are off,
and no long name begins with a dash or slash.) -/
theorem C75_iff (c : Cmdline) (hs : c.styleParser = none) (ha : c.additional = none) (hg : ¬ Enabled c Style.allowGuessing)
    (hd : ¬ Enabled c Style.allowLongDisguise)
    (hstar : ∀ d ∈ c.desc, ∀ n ∈ d.longNames, '*' ∈ n → ∀ m, d.longNames.head? = some m → '*' ∈ m)
    (hlead : ∀ d ∈ c.desc, ∀ n ∈ d.longNames, n.head? ≠ some '-' ∧ n.head? ≠ some '/')
    (hshort : ∀ d ∈ c.desc, d.shortName = [] ∨ d.shortName.head? = some '-')
    (hne : ∀ d ∈ c.desc, ∀ name, name ≠ [] → reportedKey d name ≠ []) (args : List Str) (hlen : args.length < 2147483648) (res : List Opt)
    (h : c.run args = .ok res) :
    Cmdline.run { c with style := c.style ||| Style.allowGuessing } args = .ok res ↔
      ∀ o ∈ res, o.positionKey = -1 → o.stringKey ≠ [] → ¬ Tempting c o.stringKey := by
  have hu : Guess.Usual c := ⟨hstar, hlead, hshort⟩
  obtain ⟨os, os', h1, h2, h3⟩ := (C61_grammar c hs hne args hlen res).1 h
  have hm : Guess.marks res = Guess.marks os := (Guess.labels_marks h3).trans (Guess.gathers_marks h2)
  constructor
  · intro hrun o ho hp h0 ht
    obtain ⟨gs, gs', g1, g2, g3⟩ := (C61_grammar c.guessing hs hne args hlen res).1 hrun
    have hmg : Guess.marks res = Guess.marks gs := (Guess.labels_marks g3).trans (Guess.gathers_marks g2)
    have hin : (o.stringKey, o.unregistered) ∈ Guess.marks res := Guess.mem_marks.2 ⟨o, ho, hp, h0, rfl, rfl⟩
    obtain ⟨p, hp1, _, hp2, hp3, hp4⟩ := Guess.mem_marks.1 (hm ▸ hin)
    obtain ⟨q, hq1, _, hq2, hq3, hq4⟩ := Guess.mem_marks.1 (hmg ▸ hin)
    obtain ⟨_, hpo⟩ := Guess.reads_origin h1 p hp1 hp2
    obtain ⟨_, hqo⟩ := Guess.reads_origin g1 q hq1 hq2
    rw [hp3, hp4] at hpo
    rw [hq3, hq4] at hqo
    rcases hqo with ⟨_, hqu⟩ | ⟨hqr, d, n, hqd, hqk⟩
    · obtain ⟨_, d, hd, _, hap⟩ := ht
      have := (hqu d hd).2
      rw [Guess.li, Guess.on] at this
      exact this hap
    · have hqm : d ∈ c.desc := Cmdline.denotes_mem (c := c.guessing) hqd
      have hqe := Guess.written hu hqm (n := n) (hqk ▸ h0) (hqk ▸ ht)
      have hun : Unknown c o.stringKey := Guess.unknown_of_tempting (d := d) ht (by rw [hqk, hqe]; exact hqd) hg
      rcases hpo with ⟨hpr, _⟩ | ⟨_, d', n', hpd, hpk⟩
      · rw [hqr] at hpr
        cases hpr
      · have hpm : d' ∈ c.desc := Cmdline.denotes_mem hpd
        have hpe := Guess.written hu hpm (n := n') (hpk ▸ h0) (hpk ▸ ht)
        rw [hpk, hpe] at hun
        have hno := hun d' hpm
        unfold Denotes at hpd
        dsimp only at hpd
        rcases hpd with he | ⟨_, he⟩
        · have : d' ∈ exacts c.desc n' (active c.style Style.longCaseInsensitive) (active c.style Style.shortCaseInsensitive) := by
            rw [he]; simp
          unfold exacts at this
          rw [List.mem_filter, decide_eq_true_eq] at this
          exact hno.1 this.2
        · have : d' ∈ approximates c.desc n' (active c.style Style.allowGuessing) (active c.style Style.longCaseInsensitive) (active c.style Style.shortCaseInsensitive) := by
            rw [he]; simp
          unfold approximates at this
          rw [List.mem_filter, decide_eq_true_eq] at this
          exact hno.2 this.2.2
  · intro hno
    have hos : ∀ o ∈ os, o.stringKey ≠ [] → ¬ Tempting c o.stringKey := by
      intro o ho h0
      have hp := (Guess.reads_origin h1 o ho h0).1
      have hin : (o.stringKey, o.unregistered) ∈ Guess.marks res := hm ▸ Guess.mem_marks.2 ⟨o, ho, hp, h0, rfl, rfl⟩
      obtain ⟨r, hr1, hr2, hr3, hr4, _⟩ := Guess.mem_marks.1 hin
      rw [← hr4]
      exact hno r hr1 hr2 hr3
    exact (C61_grammar c.guessing hs hne args hlen res).2
      ⟨os, os', Guess.reads' hu hg ha hd h1 hos, Guess.gathers' hg h2 hos, Guess.labels h3⟩

/-- Not vacuous, unregistered options: `--fo` is unknown without guessing, and `foo` with it; `--x` is unknown in either case. -/
example :
    let c : Cmdline := { desc := [Test.od "foo,f" (Test.sem Test.vstr) "", Test.od "bar*" (Test.sem Test.vstr) ""], style := 503, allowUnregistered := true }
    ((c.run [Test.L "--fo=1", Test.L "--x", Test.L "--bart=2"]).map (·.map fun o => (o.stringKey, o.unregistered))) =
      .ok [(Test.L "fo", true), (Test.L "x", true), (Test.L "bart", false)] ∧
    Tempting c (Test.L "fo") ∧ ¬ Tempting c (Test.L "x") ∧ ¬ Tempting c (Test.L "bart") ∧
    ((c.guessing.run [Test.L "--fo=1", Test.L "--x", Test.L "--bart=2"]).map (·.map fun o => (o.stringKey, o.unregistered))) =
      .ok [(Test.L "foo", false), (Test.L "x", true), (Test.L "bart", false)] :=
  ⟨rfl, by unfold Tempting; decide, by unfold Tempting; decide, by unfold Tempting; decide, rfl⟩

end PO
