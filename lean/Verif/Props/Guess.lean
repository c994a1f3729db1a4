import Verif.Props.Grammar
/-
C75: guessing only adds.
-/
namespace PO
open Spec

/-- The same parser, with abbreviations of long names allowed. -/
def Cmdline.guessing (c : Cmdline) : Cmdline := { c with style := c.style ||| Style.allowGuessing }

namespace Guess

variable {c : Cmdline}

theorem active_or (s b : Nat) (h : Style.allowGuessing &&& b = 0) : active (s ||| Style.allowGuessing) b = active s b := by
  unfold active
  rw [Nat.and_or_distrib_right, h, Nat.or_zero]

theorem enabled (b : Nat) (h : Style.allowGuessing &&& b = 0) : Enabled c.guessing b ↔ Enabled c b := by
  unfold Enabled Cmdline.guessing
  rw [active_or _ _ h]

theorem li : active c.guessing.style Style.longCaseInsensitive = active c.style Style.longCaseInsensitive := active_or _ _ rfl
theorem si : active c.guessing.style Style.shortCaseInsensitive = active c.style Style.shortCaseInsensitive := active_or _ _ rfl

/-- Long names without a star, and without a dash or slash at the beginning; short names with a dash. -/
structure Tame (c : Cmdline) : Prop where
  star : ∀ d ∈ c.desc, ∀ n ∈ d.longNames, '*' ∉ n
  lead : ∀ d ∈ c.desc, ∀ n ∈ d.longNames, n.head? ≠ some '-' ∧ n.head? ≠ some '/'
  short : ∀ d ∈ c.desc, d.shortName = [] ∨ d.shortName.head? = some '-'

theorem toLower_fixed {x y : Char} (hx : x.toNat < 97) (h : y.toLower = x) : y = x := by
  unfold Char.toLower at h
  split at h
  · rename_i hh
    exfalso
    have := congrArg Char.toNat h
    simp only [Char.toNat] at this hx
    obtain ⟨h1, h2⟩ := hh
    have h1' : 65 ≤ y.val.toNat := h1
    have h2' : y.val.toNat ≤ 90 := h2
    rw [UInt32.toNat_add] at this
    have e : ('a'.val - 'A'.val).toNat = 32 := rfl
    rw [e] at this
    omega
  · exact h

theorem mem_fold {b : Bool} {s : Str} {x : Char} (hx : x.toNat < 97) (h : x ∈ fold b s) : x ∈ s := by
  unfold fold at h
  split at h
  · obtain ⟨y, hy, e⟩ := List.mem_map.1 h
    rw [← toLower_fixed hx e]
    exact hy
  · exact h

theorem head_fold {b : Bool} {s : Str} {x : Char} (hx : x.toNat < 97) (h : (fold b s).head? = some x) : s.head? = some x := by
  cases s with
  | nil => unfold fold at h; split at h <;> cases h
  | cons y s =>
    unfold fold at h
    split at h
    · simp only [List.map_cons, List.head?_cons, Option.some.injEq] at h
      rw [← toLower_fixed hx h]
      rfl
    · exact h

theorem fold_cons {b : Bool} {s : Str} {x : Char} (hx : x.toLower = x) : fold b (x :: s) = x :: fold b s := by
  unfold fold
  split
  · rw [List.map_cons, hx]
  · rfl

/-- Without stars there are no families, so that without guessing nothing matches approximately. -/
theorem no_approximate (h : Tame c) {d : OptionDesc} (hd : d ∈ c.desc) (n : Str) (b : Bool) : ¬ Approximate d n false b := by
  rintro ⟨m, hm, _, ⟨h1, _⟩ | ⟨stem, h2, _⟩⟩
  · cases h1
  · refine h.star d hd m hm (mem_fold (x := '*') (b := b) (by decide) ?_)
    rw [h2]
    simp

theorem approximates_nil (h : Tame c) (n : Str) (b s : Bool) : approximates c.desc n false b s = [] := by
  unfold approximates
  rw [List.filter_eq_nil_iff]
  intro d hd
  simp only [decide_eq_true_eq]
  exact fun hh => no_approximate h hd n b hh.2

theorem denotes (h : Tame c) (hg : ¬ Enabled c Style.allowGuessing) {n : Str} {d : OptionDesc} (hd : Denotes c n d) : Denotes c.guessing n d := by
  unfold Denotes at hd ⊢
  dsimp only at hd ⊢
  rw [li, si]
  have hg' : active c.style Style.allowGuessing = false := by
    unfold Enabled at hg
    simpa using hg
  rw [hg', approximates_nil h] at hd
  rcases hd with hd | ⟨_, hd⟩
  · exact .inl hd
  · cases hd

theorem unknown (h : Tame c) {t : Str} {x : Char} (hx : x = '-' ∨ x = '/') (hu : Unknown c (x :: t)) : Unknown c.guessing (x :: t) := by
  intro d hd
  obtain ⟨h1, h2⟩ := hu d hd
  rw [li, si]
  refine ⟨h1, ?_⟩
  rintro ⟨m, hm, h0, ⟨_, h3⟩ | ⟨stem, h4, h5⟩⟩
  · have hxl : x.toLower = x := by rcases hx with rfl | rfl <;> decide
    have hx97 : x.toNat < 97 := by rcases hx with rfl | rfl <;> decide
    rw [fold_cons hxl] at h3
    have hh : (fold (active c.style Style.longCaseInsensitive) m).head? = some x := by
      obtain ⟨r, hr⟩ := h3
      rw [← hr]
      rfl
    have := head_fold hx97 hh
    have ht := h.lead d hd m hm
    rcases hx with rfl | rfl
    · exact ht.1 this
    · exact ht.2 this
  · exact h2 ⟨m, hm, h0, .inr ⟨stem, h4, h5⟩⟩

theorem denotesLetter {a : Char} {d : OptionDesc} : DenotesLetter c.guessing a d ↔ DenotesLetter c a d := by
  unfold DenotesLetter
  dsimp only
  rw [si]
  rfl

theorem unknownShort {a : Char} : UnknownShort c.guessing a ↔ UnknownShort c a := by
  unfold UnknownShort
  rw [si]
  rfl

theorem groupSwitch {a : Char} : GroupSwitch c.guessing a ↔ GroupSwitch c a := by
  unfold GroupSwitch
  rw [enabled _ rfl]
  simp only [denotesLetter]

theorem group {tok t : Str} {items : List Item} (h : Group c tok t items) : Group c.guessing tok t items := by
  induction h with
  | last a h => exact .last a (h.imp (fun ⟨d, hd⟩ => ⟨d, denotesLetter.2 hd⟩) unknownShort.2)
  | value a v hv h hs => exact .value a v hv (h.imp (fun ⟨d, hd⟩ => ⟨d, denotesLetter.2 hd⟩) unknownShort.2) (mt groupSwitch.1 hs)
  | switch a t items ht h g ih => exact .switch a t items ht (groupSwitch.2 h) ih

theorem spells (hn : ¬ Enabled c Style.allowLongDisguise) {tok : Str} {items : List Item} (h : Spells c tok items) : Spells c.guessing tok items := by
  have hn' : ¬ Enabled c.guessing Style.allowLongDisguise := mt (enabled _ rfl).1 hn
  cases h with
  | additional f hf hn => exact .additional f hf hn
  | long name hu hs ht hn h0 => exact .long name hu ((enabled _ rfl).2 hs) ht hn h0
  | longEq name v hu hs ht hn hv => exact .longEq name v hu ((enabled _ rfl).2 hs) ht hn hv
  | disguised lead name d hu hs => exact absurd hs hn
  | disguisedEq lead name v d hu hs => exact absurd hs hn
  | short a t items hu hs ht ha hd hg =>
    exact .short a t items hu ⟨(enabled _ rfl).2 hs.1, (enabled _ rfl).2 hs.2⟩ ht ha (fun hh => absurd hh hn') (group hg)
  | slash a t hu hs ht hd => exact .slash a t hu ⟨(enabled _ rfl).2 hs.1, (enabled _ rfl).2 hs.2⟩ ht (fun hh => absurd hh hn')

theorem plain (hn : ¬ Enabled c Style.allowLongDisguise) {tok : Str} (h : Plain c tok) : Plain c.guessing tok where
  unclaimed := h.unclaimed
  long := fun h1 => h.long ((enabled _ rfl).1 h1)
  disguised := fun hh => absurd ((enabled _ rfl).1 hh) hn
  short := fun h1 h2 => h.short ((enabled _ rfl).1 h1) ((enabled _ rfl).1 h2)
  slash := fun h1 h2 => h.slash ((enabled _ rfl).1 h1) ((enabled _ rfl).1 h2)

theorem spells_lead (ha : c.additional = none) {tok : Str} {items : List Item} (h : Spells c tok items) :
    ∃ x t, tok = x :: t ∧ (x = '-' ∨ x = '/') := by
  cases h with
  | additional f hf hn => rw [ha] at hf; cases hf
  | long name hu hs ht hn h0 => exact ⟨_, _, ht, .inl rfl⟩
  | longEq name v hu hs ht hn hv => exact ⟨_, _, ht, .inl rfl⟩
  | disguised lead name d hu hs ht hl => exact ⟨_, _, ht, hl.2.imp (·.1) (·.1)⟩
  | disguisedEq lead name v d hu hs ht hl => exact ⟨_, _, ht, hl.2.imp (·.1) (·.1)⟩
  | short a t items hu hs ht ha hd hg => exact ⟨_, _, ht, .inl rfl⟩
  | slash a t hu hs ht hd => exact ⟨_, _, ht, .inr rfl⟩

theorem takeable (h : Tame c) (ha : c.additional = none) (hn : ¬ Enabled c Style.allowLongDisguise) {v : Str} (ht : Takeable c v) :
    Takeable c.guessing v := by
  rcases ht with ht | ⟨⟨items, hs⟩, hu⟩
  · exact .inl (plain hn ht)
  · obtain ⟨x, t, rfl, hx⟩ := spells_lead ha hs
    exact .inr ⟨⟨items, spells hn hs⟩, unknown h hx hu⟩

theorem completes (h : Tame c) (hg : ¬ Enabled c Style.allowGuessing) (ha : c.additional = none) (hn : ¬ Enabled c Style.allowLongDisguise)
    (hr : c.allowUnregistered = false) {i : Item} {taken : List Str} {o : Opt} (hc : Completes c i taken o) : Completes c.guessing i taken o := by
  cases hc with
  | nameless h => exact .nameless h
  | unknown h hn hu => rw [hr] at hu; cases hu
  | known d taken h0 hd hlen htake hs => exact .known d taken h0 (denotes h hg hd) hlen (fun v hv => takeable h ha hn (htake v hv)) hs

theorem completesAll (h : Tame c) (hg : ¬ Enabled c Style.allowGuessing) (ha : c.additional = none) (hn : ¬ Enabled c Style.allowLongDisguise)
    (hr : c.allowUnregistered = false) {is : List Item} {taken : List Str} {os : List Opt} (hc : CompletesAll c is taken os) :
    CompletesAll c.guessing is taken os := by
  induction hc with
  | one hc => exact .one (completes h hg ha hn hr hc)
  | cons hc t ih => exact .cons (completes h hg ha hn hr hc) ih

theorem reads (h : Tame c) (hg : ¬ Enabled c Style.allowGuessing) (ha : c.additional = none) (hn : ¬ Enabled c Style.allowLongDisguise)
    (hr : c.allowUnregistered = false) {args : List Str} {os : List Opt} (hc : Reads c args os) : Reads c.guessing args os := by
  induction hc with
  | nil => exact .nil
  | plain hp hd t ih => exact .plain (plain hn hp) hd ih
  | terminator hu => exact .terminator hu
  | option hs hc t ih => exact .option (spells hn hs) (completesAll h hg ha hn hr hc) ih

/-- What is read under a name is a declared option, so the name is not unknown, unless it is a short name. -/
theorem reads_known (h : Tame c)
    (hr : c.allowUnregistered = false) {args : List Str} {os : List Opt} (hc : Reads c args os) :
    ∀ o ∈ os, o.stringKey ≠ [] → Unknown c o.stringKey → Unknown c.guessing o.stringKey := by
  have hcomp : ∀ {i taken o}, Completes c i taken o → o.stringKey ≠ [] → Unknown c o.stringKey → Unknown c.guessing o.stringKey := by
    intro i taken o hc h0 hu
    cases hc with
    | nameless h => exact absurd rfl h0
    | unknown h hn hx => rw [hr] at hx; cases hx
    | known d taken hi hd hlen htake hs =>
      have hmem := Cmdline.denotes_mem hd
      dsimp only at hu h0 ⊢
      have hk : ∃ t, reportedKey d i.name = '-' :: t := by
        have hno := (hu d hmem).1
        unfold reportedKey at h0 hno ⊢
        cases hl : d.longNames with
        | nil =>
          rw [hl] at h0
          dsimp only [List.head?_nil] at h0 ⊢
          rcases h.short d hmem with he | he
          · exact absurd he h0
          · cases hsn : d.shortName with
            | nil => exact absurd hsn h0
            | cons x t => rw [hsn] at he; simp at he; exact ⟨t, by rw [he]⟩
        | cons n ns =>
          exfalso
          have hs := h.star d hmem n (by rw [hl]; simp)
          rw [hl] at h0 hno
          dsimp only [List.head?_cons] at h0 hno
          rw [if_neg hs] at h0 hno
          exact hno (.inl ⟨n, by rw [hl]; simp, h0, rfl⟩)
      obtain ⟨t, ht⟩ := hk
      rw [ht] at hu ⊢
      exact unknown h (.inl rfl) hu
  have hall : ∀ {is taken os}, CompletesAll c is taken os → ∀ o ∈ os, o.stringKey ≠ [] → Unknown c o.stringKey → Unknown c.guessing o.stringKey := by
    intro is taken os hc o ho h0
    obtain ⟨i, _, taken', hc'⟩ := Cmdline.completesAll_mem hc o ho
    exact hcomp hc' h0
  induction hc with
  | nil => nofun
  | plain hp hd t ih =>
    intro o ho h0
    rcases List.mem_cons.1 ho with rfl | ho
    · exact absurd rfl h0
    · exact ih o ho h0
  | terminator hu =>
    intro o ho h0
    obtain ⟨a, _, rfl⟩ := List.mem_map.1 ho
    exact absurd rfl h0
  | option hs hc t ih =>
    intro o ho h0
    rcases List.mem_append.1 ho with ho | ho
    · exact hall hc o ho h0
    · exact ih o ho h0

theorem gathers (h : Tame c) (hg : ¬ Enabled c Style.allowGuessing) {os os' : List Opt} (hG : Gathers c os os')
    (hu : ∀ o ∈ os, o.stringKey ≠ [] → Unknown c o.stringKey → Unknown c.guessing o.stringKey) : Gathers c.guessing os os' := by
  induction hG with
  | nil => exact .nil
  | positional h0 t ih => exact .positional h0 (ih fun o ho => hu o (by simp [ho]))
  | keep h0 hr t ih =>
    refine .keep h0 ?_ (ih fun o ho => hu o (by simp [ho]))
    rcases hr with hr | ⟨d, hd, hr⟩
    · exact .inl (hu _ (by simp) h0 hr)
    · exact .inr ⟨d, denotes h hg hd, hr⟩
  | take d h0 hd hr hp hmax t ih => exact .take d h0 (denotes h hg hd) hr hp hmax (ih fun o ho => hu o (by simp [ho]))

theorem labels {n : Nat} {os res : List Opt} (hL : Labels c n os res) : Labels c.guessing n os res := by
  have hcf : ∀ k, caseFlag c.guessing k = caseFlag c k := by
    intro k
    unfold caseFlag
    rw [li, si]
  induction hL with
  | nil => exact .nil
  | named h t ih => rw [← hcf]; exact .named h ih
  | positional name h hn t ih => rw [← hcf]; exact .positional name h hn ih

end Guess

/-- The full claim of C75. -/
def C75_claim : Prop := ∀ (c : Cmdline) (args : List Str) (res : List Opt), c.styleParser = none → c.allowUnregistered = false →
  c.run args = .ok res → Cmdline.run { c with style := c.style ||| Style.allowGuessing } args = .ok res

/-- **C75 is violated:** `--foob` belongs to the family `foo*`, but with guessing it may also abbreviate `foobar`. -/
theorem C75_negation : ¬ C75_claim := by
  intro h
  have h1 := h { desc := [Test.od "foo*" (Test.sem Test.vstr) "", Test.od "foobar" (Test.sem Test.vstr) ""], style := 503 } [Test.L "--foob=1"] _ rfl rfl rfl
  have h2 : Cmdline.run { desc := [Test.od "foo*" (Test.sem Test.vstr) "", Test.od "foobar" (Test.sem Test.vstr) ""], style := 503 ||| Style.allowGuessing } [Test.L "--foob=1"] = .error (.opt _) := rfl
  cases h2.symm.trans h1

/-- **C75, what holds:** if disguised long options are off, there is no additional parser, no declared long name contains a star or
begins with a dash or slash, and every option has a name, then a command line accepted without guessing is read the same with it. -/
theorem C75_guessing_partial (c : Cmdline) (hs : c.styleParser = none) (hr : c.allowUnregistered = false) (ha : c.additional = none)
    (hd : ¬ Enabled c Style.allowLongDisguise) (hstar : ∀ d ∈ c.desc, ∀ n ∈ d.longNames, '*' ∉ n)
    (hlead : ∀ d ∈ c.desc, ∀ n ∈ d.longNames, n.head? ≠ some '-' ∧ n.head? ≠ some '/')
    (hshort : ∀ d ∈ c.desc, d.shortName = [] ∨ d.shortName.head? = some '-')
    (hne : ∀ d ∈ c.desc, ∀ name, name ≠ [] → reportedKey d name ≠ []) (args : List Str) (hlen : args.length < 2147483648) (res : List Opt)
    (h : c.run args = .ok res) : Cmdline.run { c with style := c.style ||| Style.allowGuessing } args = .ok res := by
  by_cases hg : Enabled c Style.allowGuessing
  · have : c.style ||| Style.allowGuessing = c.style := by
      have hb : c.style.testBit 9 = true := by
        unfold Enabled active at hg
        simp only [bne_iff_ne] at hg
        obtain ⟨i, hi⟩ := Nat.exists_testBit_of_ne_zero hg
        rw [Nat.testBit_and, show Style.allowGuessing = 2 ^ 9 from rfl, Nat.testBit_two_pow, Bool.and_eq_true, decide_eq_true_eq] at hi
        rw [hi.2]
        exact hi.1
      apply Nat.eq_of_testBit_eq
      intro i
      rw [Nat.testBit_or, show Style.allowGuessing = 2 ^ 9 from rfl, Nat.testBit_two_pow]
      by_cases hi : 9 = i
      · subst hi; rw [hb]; rfl
      · simp [hi]
    rw [this]
    exact h
  · have ht : Guess.Tame c := ⟨hstar, hlead, hshort⟩
    obtain ⟨os, os', h1, h2, h3⟩ := (C61_grammar c hs hne args hlen res).1 h
    exact (C61_grammar c.guessing hs hne args hlen res).2
      ⟨os, os', Guess.reads ht hg ha hd hr h1, Guess.gathers ht hg h2 (Guess.reads_known ht hr h1), Guess.labels h3⟩

/-- Not vacuous: without guessing `--foo=1 -b x` is read, `--fo=1` is not; with guessing both are. -/
def guessExample : Cmdline := { desc := [Test.od "foo,f" (Test.sem Test.vstr) "", Test.od "bar,b" (Test.sem Test.vstr) ""], style := 503 }

example : ((guessExample.run [Test.L "--foo=1", Test.L "-b", Test.L "x"]).map (·.map (·.value))) = .ok [[Test.L "1"], [Test.L "x"]] ∧
    ¬ Enabled guessExample Style.allowGuessing ∧ ¬ Enabled guessExample Style.allowLongDisguise :=
  ⟨rfl, by unfold Enabled; decide, by unfold Enabled; decide⟩
example : (∃ f, guessExample.run [Test.L "--fo=1"] = .error f) ∧
    ((guessExample.guessing.run [Test.L "--fo=1"]).map (·.map (·.stringKey))) = .ok [Test.L "foo"] := ⟨⟨_, rfl⟩, rfl⟩

end PO
