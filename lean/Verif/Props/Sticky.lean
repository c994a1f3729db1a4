import Verif.Props.Guess
/-
C150: allowing letters to be grouped only adds.
-/
namespace PO
open Spec

/-- The same parser, with grouped letters allowed. -/
def Cmdline.sticky (c : Cmdline) : Cmdline := { c with style := c.style ||| Style.allowSticky }

namespace Sticky

variable {c : Cmdline}

theorem active_or (s b : Nat) (h : Style.allowSticky &&& b = 0) : active (s ||| Style.allowSticky) b = active s b := by
  unfold active
  rw [Nat.and_or_distrib_right, h, Nat.or_zero]

theorem enabled (b : Nat) (h : Style.allowSticky &&& b = 0) : Enabled c.sticky b ↔ Enabled c b := by
  unfold Enabled Cmdline.sticky
  rw [active_or _ _ h]

theorem on : Enabled c.sticky Style.allowSticky := by
  unfold Enabled active Cmdline.sticky
  simp only [bne_iff_ne]
  rw [Nat.and_or_distrib_right]
  intro h
  rw [Nat.or_eq_zero_iff] at h
  exact absurd h.2 (by decide)

theorem li : active c.sticky.style Style.longCaseInsensitive = active c.style Style.longCaseInsensitive := active_or _ _ rfl
theorem si : active c.sticky.style Style.shortCaseInsensitive = active c.style Style.shortCaseInsensitive := active_or _ _ rfl
theorem gu : active c.sticky.style Style.allowGuessing = active c.style Style.allowGuessing := active_or _ _ rfl

theorem denotes {n : Str} {d : OptionDesc} : Denotes c.sticky n d ↔ Denotes c n d := by
  unfold Denotes
  dsimp only
  rw [li, si, gu]
  rfl

theorem unknown {n : Str} : Unknown c.sticky n ↔ Unknown c n := by
  unfold Unknown
  rw [li, si, gu]
  rfl

theorem denotesLetter {a : Char} {d : OptionDesc} : DenotesLetter c.sticky a d ↔ DenotesLetter c a d := by
  unfold DenotesLetter
  dsimp only
  rw [si]
  rfl

theorem unknownShort {a : Char} : UnknownShort c.sticky a ↔ UnknownShort c a := by
  unfold UnknownShort
  rw [si]
  rfl

theorem notDisguised {tok : Str} : NotDisguised c.sticky tok ↔ NotDisguised c tok := by
  unfold NotDisguised Disguise
  simp only [enabled Style.allowLongDisguise rfl, enabled Style.allowSlashForShort rfl, unknown]

theorem plain {tok : Str} (h : Plain c tok) : Plain c.sticky tok where
  unclaimed := h.unclaimed
  long := fun h1 => h.long ((enabled _ rfl).1 h1)
  disguised := notDisguised.2 h.disguised
  short := fun h1 h2 => h.short ((enabled _ rfl).1 h1) ((enabled _ rfl).1 h2)
  slash := fun h1 h2 => h.slash ((enabled _ rfl).1 h1) ((enabled _ rfl).1 h2)

theorem disguise {lead : Char} {rest : Str} (h : Disguise c lead rest) : Disguise c.sticky lead rest :=
  ⟨h.1, h.2.imp id fun ⟨h1, h2⟩ => ⟨h1, (enabled _ rfl).2 h2⟩⟩

/-- A group in which every letter is clear: something can be read from it. -/
theorem group_exists (tok : Str) : ∀ (a : Char) (t : Str), (∀ b ∈ a :: t, (∃ d, DenotesLetter c b d) ∨ UnknownShort c b) →
    ∃ items, Group c tok (a :: t) items
  | a, [], h => ⟨_, .last a (h a (by simp))⟩
  | a, b :: t, h => by
    by_cases hs : GroupSwitch c a
    · obtain ⟨items, hg⟩ := group_exists tok b t fun x hx => h x (List.mem_cons_of_mem _ hx)
      exact ⟨_, .switch a (b :: t) items (by simp) hs hg⟩
    · exact ⟨_, .value a (b :: t) (by simp) (h a (by simp)) hs⟩

/-- The token is still taken for an option, perhaps for another one. -/
theorem spells_exists {tok : Str} {items : List Item} (hl : ∀ a ∈ tok, (∃ d, DenotesLetter c a d) ∨ UnknownShort c a) (h : Spells c tok items) :
    ∃ items', Spells c.sticky tok items' := by
  cases h with
  | additional f hf hn => exact ⟨_, .additional f hf hn⟩
  | long name hu hs ht hn h0 => exact ⟨_, .long name hu ((enabled _ rfl).2 hs) ht hn h0⟩
  | longEq name v hu hs ht hn hv => exact ⟨_, .longEq name v hu ((enabled _ rfl).2 hs) ht hn hv⟩
  | disguised lead name d hu hs ht hl hn hd => exact ⟨_, .disguised lead name d hu ((enabled _ rfl).2 hs) ht (disguise hl) hn (denotes.2 hd)⟩
  | disguisedEq lead name v d hu hs ht hl hn hv hd =>
    exact ⟨_, .disguisedEq lead name v d hu ((enabled _ rfl).2 hs) ht (disguise hl) hn hv (denotes.2 hd)⟩
  | short a t items hu hs ht ha hd hg =>
    obtain ⟨items', hg'⟩ := group_exists (c := c.sticky) tok a t fun b hb =>
      (hl b (by rw [ht]; exact List.mem_cons_of_mem _ hb)).imp (fun ⟨d, hd⟩ => ⟨d, denotesLetter.2 hd⟩) unknownShort.2
    exact ⟨items', .short a t items' hu ⟨(enabled _ rfl).2 hs.1, (enabled _ rfl).2 hs.2⟩ ht ha (notDisguised.2 hd) hg'⟩
  | slash a t hu hs ht hd => exact ⟨_, .slash a t hu ⟨(enabled _ rfl).2 hs.1, (enabled _ rfl).2 hs.2⟩ ht (notDisguised.2 hd)⟩

/-- No long name is a mere star or begins with a dash; and if letter case of long names is disregarded, so is that of short names. -/
structure Usual (c : Cmdline) : Prop where
  lead : ∀ d ∈ c.desc, ∀ n ∈ d.longNames, n.head? ≠ some '-' ∧ n ≠ ['*']
  icase : Enabled c Style.longCaseInsensitive → Enabled c Style.shortCaseInsensitive

/-- What a letter of a group stands for is what its name stands for, if that stands for anything. -/
theorem letter_is (hu : Usual c) {a : Char} {d : OptionDesc} (h : DenotesLetter c a d) :
    d ∈ c.desc ∧ Exact d ['-', a] (active c.style Style.longCaseInsensitive) (active c.style Style.shortCaseInsensitive) := by
  unfold DenotesLetter at h
  dsimp only at h
  rcases h with h | ⟨-, h⟩
  · have hm : d ∈ exacts c.desc ['-', a] false (active c.style Style.shortCaseInsensitive) := by rw [h]; simp
    unfold exacts at hm
    rw [List.mem_filter, decide_eq_true_eq] at hm
    refine ⟨hm.1, ?_⟩
    rcases hm.2 with ⟨n, hn, h0, he⟩ | he
    · exfalso
      refine (hu.lead d hm.1 n hn).1 ?_
      have : n = ['-', a] := he
      rw [this]
      rfl
    · refine .inr ?_
      have he' : fold (active c.style Style.shortCaseInsensitive) d.shortName = ['-', a] := he
      cases hli : active c.style Style.longCaseInsensitive with
      | false => exact he'
      | true =>
        have hs := hu.icase hli
        unfold Enabled at hs
        rw [hs] at he' ⊢
        unfold fold at he' ⊢
        rw [if_pos rfl] at he'
        rw [if_pos rfl, if_pos rfl]
        rw [he', ← he', List.map_map]
        refine List.map_congr_left fun x _ => ?_
        exact (toLower_toLower_char x).symm
  · exfalso
    have hm : d ∈ approximates c.desc ['-', a] false false (active c.style Style.shortCaseInsensitive) := by rw [h]; simp
    unfold approximates at hm
    rw [List.mem_filter, decide_eq_true_eq] at hm
    obtain ⟨hd, -, n, hn, h0, ⟨h1, -⟩ | ⟨stem, h2, h3⟩⟩ := hm
    · cases h1
    · have hn' : n = stem ++ ['*'] := h2
      have h3' : stem <+: ['-', a] := h3
      cases stem with
      | nil => exact (hu.lead d hd n hn).2 hn'
      | cons x s =>
        obtain ⟨r, hr⟩ := h3'
        injection hr with h4 h5
        exact (hu.lead d hd n hn).1 (by rw [hn', ← h4]; rfl)

theorem denotes_letter (hu : Usual c) {a : Char} {d d' : OptionDesc} (h : DenotesLetter c a d) (h' : Denotes c ['-', a] d') : d' = d := by
  obtain ⟨hm, he⟩ := letter_is hu h
  have hmem : d ∈ exacts c.desc ['-', a] (active c.style Style.longCaseInsensitive) (active c.style Style.shortCaseInsensitive) := by
    unfold exacts
    rw [List.mem_filter, decide_eq_true_eq]
    exact ⟨hm, he⟩
  unfold Denotes at h'
  dsimp only at h'
  rcases h' with h' | ⟨h', -⟩
  · rw [h', List.mem_singleton] at hmem
    exact hmem.symm
  · rw [h'] at hmem
    cases hmem

/-- A switch with a value attached is refused. -/
theorem no_value (hu : Usual c) {a : Char} {v : Str} {toks taken : List Str} {os : List Opt} (hc : CompletesAll c [⟨['-', a], [v], toks⟩] taken os)
    {d : OptionDesc} (h : DenotesLetter c a d) (h0 : d.semantic.maxTokens = 0) : False := by
  cases hc with
  | one hc =>
    cases hc with
    | nameless h => cases h
    | unknown _ hn _ =>
      obtain ⟨hm, he⟩ := letter_is hu h
      exact (hn d hm).1 he
    | known d' taken _ hd hlen htake hs =>
      rw [denotes_letter hu h hd] at hs
      cases hs h0
  | cons _ t => cases t

theorem spells (hu : Usual c) (hn : ¬ Enabled c Style.allowSticky) {tok : Str} {items : List Item} {taken : List Str} {os : List Opt} (h : Spells c tok items)
    (hc : CompletesAll c items taken os) : Spells c.sticky tok items := by
  cases h with
  | additional f hf hn => exact .additional f hf hn
  | long name hu hs ht hn h0 => exact .long name hu ((enabled _ rfl).2 hs) ht hn h0
  | longEq name v hu hs ht hn hv => exact .longEq name v hu ((enabled _ rfl).2 hs) ht hn hv
  | disguised lead name d hu hs ht hl hn hd => exact .disguised lead name d hu ((enabled _ rfl).2 hs) ht (disguise hl) hn (denotes.2 hd)
  | disguisedEq lead name v d hu hs ht hl hn hv hd =>
    exact .disguisedEq lead name v d hu ((enabled _ rfl).2 hs) ht (disguise hl) hn hv (denotes.2 hd)
  | short a t items hcl hs ht ha hd hg =>
    refine .short a t items hcl ⟨(enabled _ rfl).2 hs.1, (enabled _ rfl).2 hs.2⟩ ht ha (notDisguised.2 hd) ?_
    cases hg with
    | last a h => exact .last a (h.imp (fun ⟨d, hd⟩ => ⟨d, denotesLetter.2 hd⟩) unknownShort.2)
    | value a v hv h _ =>
      refine .value a _ hv (h.imp (fun ⟨d, hd⟩ => ⟨d, denotesLetter.2 hd⟩) unknownShort.2) ?_
      rintro ⟨-, d, hd, h0⟩
      exact no_value hu hc (denotesLetter.1 hd) h0
    | switch a t items ht h g => exact absurd h.1 hn
  | slash a t hcl hs ht hd => exact .slash a t hcl ⟨(enabled _ rfl).2 hs.1, (enabled _ rfl).2 hs.2⟩ ht (notDisguised.2 hd)

/-- The letter is clear: not the short name of several options. -/
def ClearIn (c : Cmdline) (toks : List Str) : Prop := ∀ tok ∈ toks, ∀ a ∈ tok, (∃ d, DenotesLetter c a d) ∨ UnknownShort c a

theorem completes {i : Item} {taken : List Str} {o : Opt} (hl : ClearIn c taken) (hc : Completes c i taken o) : Completes c.sticky i taken o := by
  cases hc with
  | nameless h => exact .nameless h
  | unknown h hn hr => exact .unknown h (unknown.2 hn) hr
  | known d taken h0 hd hlen htake hs =>
    refine .known d taken h0 (denotes.2 hd) hlen (fun v hv => ?_) hs
    rcases htake v hv with hp | ⟨⟨items, hsp⟩, hk⟩
    · exact .inl (plain hp)
    · exact .inr ⟨spells_exists (hl v hv) hsp, unknown.2 hk⟩

theorem completesAll {is : List Item} {taken : List Str} {os : List Opt} (hc : CompletesAll c is taken os) (hl : ClearIn c taken) :
    CompletesAll c.sticky is taken os := by
  induction hc with
  | one hc => exact .one (completes hl hc)
  | cons hc t ih => exact .cons (completes (fun _ h => nomatch h) hc) (ih hl)

theorem reads (hu : Usual c) (hn : ¬ Enabled c Style.allowSticky) {args : List Str} {os : List Opt} (hc : Reads c args os) (hl : ClearIn c args) :
    Reads c.sticky args os := by
  induction hc with
  | nil => exact .nil
  | plain hp hd t ih => exact .plain (plain hp) hd (ih fun v hv => hl v (List.mem_cons_of_mem _ hv))
  | terminator hu => exact .terminator hu
  | option hs hc t ih =>
    exact .option (spells hu hn hs hc) (completesAll hc fun v hv => hl v (by simp [hv])) (ih fun v hv => hl v (by simp [hv]))

theorem gathers {os os' : List Opt} (hG : Gathers c os os') : Gathers c.sticky os os' := by
  induction hG with
  | nil => exact .nil
  | positional h0 t ih => exact .positional h0 ih
  | keep h0 hr t ih => exact .keep h0 (hr.imp unknown.2 fun ⟨d, hd, hr⟩ => ⟨d, denotes.2 hd, hr⟩) ih
  | take d h0 hd hr hp hmax t ih => exact .take d h0 (denotes.2 hd) hr hp hmax ih

theorem labels {n : Nat} {os res : List Opt} (hL : Labels c n os res) : Labels c.sticky n os res := by
  have hcf : ∀ k, caseFlag c.sticky k = caseFlag c k := by
    intro k
    unfold caseFlag
    rw [li, si]
  induction hL with
  | nil => exact .nil
  | named h t ih => rw [← hcf]; exact .named h ih
  | positional name h hn t ih => rw [← hcf]; exact .positional name h hn ih

end Sticky

/-- The full claim of C150. -/
def C150_claim : Prop := ∀ (c : Cmdline) (args : List Str) (res : List Opt), c.styleParser = none → c.run args = .ok res →
  Cmdline.run { c with style := c.style ||| Style.allowSticky } args = .ok res

/-- A string option `foo,f` and three switches, of which two have the short name `b`; letters may not be grouped. -/
def twice : Cmdline :=
  { desc := [Test.od "foo,f" (Test.sem Test.vstr) "", Test.od "all,a" Test.unt "", Test.od "bar,b" Test.unt "", Test.od "baz,b" Test.unt ""], style := 247 }

/-- **C150 is violated:** in `-f -ab` the value of the option `f` is `-ab`. If letters may be grouped, the parser looks for the option `b`, of which there
are two, before it takes `-ab` for a value; and refuses the command line. -/
theorem C150_negation : ¬ C150_claim := by
  intro h
  have h1 := h twice [Test.L "-f", Test.L "-ab"] _ rfl rfl
  have h2 : Cmdline.run { twice with style := twice.style ||| Style.allowSticky } [Test.L "-f", Test.L "-ab"] = .error (.opt _) := rfl
  cases h2.symm.trans h1

/-- **C150, what holds:** if no letter of the command line is the short name of two options, no long name is a mere star or begins with a dash, short names are read
without regard to case if long ones are, and every option has a name, then a command line accepted without grouped letters is read the same with them. -/
theorem C150_sticky_partial (c : Cmdline) (hs : c.styleParser = none) (hlead : ∀ d ∈ c.desc, ∀ n ∈ d.longNames, n.head? ≠ some '-' ∧ n ≠ ['*'])
    (hcase : Enabled c Style.longCaseInsensitive → Enabled c Style.shortCaseInsensitive)
    (hne : ∀ d ∈ c.desc, ∀ name, name ≠ [] → reportedKey d name ≠ []) (args : List Str) (hlen : args.length < 2147483648)
    (hclear : ∀ tok ∈ args, ∀ a ∈ tok, (∃ d, DenotesLetter c a d) ∨ UnknownShort c a) (res : List Opt) (h : c.run args = .ok res) :
    Cmdline.run { c with style := c.style ||| Style.allowSticky } args = .ok res := by
  by_cases hg : Enabled c Style.allowSticky
  · have : c.style ||| Style.allowSticky = c.style := by
      have hb : c.style.testBit 8 = true := by
        unfold Enabled active at hg
        simp only [bne_iff_ne] at hg
        obtain ⟨i, hi⟩ := Nat.exists_testBit_of_ne_zero hg
        rw [Nat.testBit_and, show Style.allowSticky = 2 ^ 8 from rfl, Nat.testBit_two_pow, Bool.and_eq_true, decide_eq_true_eq] at hi
        rw [hi.2]
        exact hi.1
      apply Nat.eq_of_testBit_eq
      intro i
      rw [Nat.testBit_or, show Style.allowSticky = 2 ^ 8 from rfl, Nat.testBit_two_pow]
      by_cases hi : 8 = i
      · subst hi; rw [hb]; rfl
      · simp [hi]
    rw [this]
    exact h
  · have ht : Sticky.Usual c := ⟨hlead, hcase⟩
    obtain ⟨os, os', h1, h2, h3⟩ := (C61_grammar c hs hne args hlen res).1 h
    exact (C61_grammar c.sticky hs hne args hlen res).2 ⟨os, os', Sticky.reads ht hg h1 hclear, Sticky.gathers h2, Sticky.labels h3⟩

/-- Not vacuous: a value `-ac`, a switch, and an option with its value attached. Without grouped letters `-ab` is refused, with them it is two switches. -/
def grouping : Cmdline :=
  { desc := [Test.od "foo,f" (Test.sem Test.vstr) "", Test.od "all,a" Test.unt "", Test.od "bar,b" Test.unt ""], style := 247 }

example : ((grouping.run [Test.L "-f", Test.L "-ac", Test.L "-a", Test.L "-fx"]).map (·.map fun o => (o.stringKey, o.value))) =
      .ok [(Test.L "foo", [Test.L "-ac"]), (Test.L "all", []), (Test.L "foo", [Test.L "x"])] ∧
    (∀ tok ∈ [Test.L "-f", Test.L "-ac", Test.L "-a", Test.L "-fx"], ∀ a ∈ tok, (exacts grouping.desc ['-', a] false false).length = 1 ∨
      (exacts grouping.desc ['-', a] false false).length = 0 ∧ (approximates grouping.desc ['-', a] false false false).length = 0) ∧
    (∃ f, grouping.run [Test.L "-ab"] = .error f) ∧
    ((grouping.sticky.run [Test.L "-ab"]).map (·.map (·.stringKey))) = .ok [Test.L "all", Test.L "bar"] := ⟨rfl, by decide, ⟨_, rfl⟩, rfl⟩

end PO
