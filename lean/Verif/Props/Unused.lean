import Verif.Props.Grammar
import Verif.Props.Compose
import Verif.Props.ConfigGrammar
import Verif.Lemmas.Mention
import Verif.Tests.Util
/-
C133: an option that an accepted command line does not use may be removed.
-/
namespace PO
open Spec

/-- No letter is the short name of two options. -/
def Spec.LettersApart (c : Cmdline) : Prop := ∀ a, (∃ d, DenotesLetter c a d) ∨ UnknownShort c a

namespace Unused

/-- The parser with one more option. -/
def more (c : Cmdline) (pre post : List OptionDesc) (d : OptionDesc) : Cmdline := { c with desc := pre ++ d :: post }

/-- Lists that have one candidate with the option, and this is another one. -/
theorem one_of {pre post : List OptionDesc} {d e : OptionDesc} {P : OptionDesc → Prop} [DecidablePred P]
    (h : (pre ++ d :: post).filter (fun x => P x) = [e]) (hne : e ≠ d) : (pre ++ post).filter (fun x => P x) = [e] := by
  rw [List.filter_append, List.filter_cons] at h
  rw [List.filter_append]
  split at h
  · have hd : d ∈ [e] := by rw [← h]; simp
    exact absurd (List.mem_singleton.1 hd).symm hne
  · exact h

theorem none_of {pre post : List OptionDesc} {d : OptionDesc} {P : OptionDesc → Prop} [DecidablePred P]
    (h : (pre ++ d :: post).filter (fun x => P x) = []) : (pre ++ post).filter (fun x => P x) = [] := by
  rw [List.filter_eq_nil_iff] at h ⊢
  intro a ha
  refine h a ?_
  rcases List.mem_append.1 ha with ha | ha <;> simp [ha]

theorem denotes_unique {c : Cmdline} {n : Str} {d e : OptionDesc} (h : Denotes c n d) (h' : Denotes c n e) : d = e := by
  unfold Denotes at h h'
  dsimp only at h h'
  rcases h with h | ⟨h1, h2⟩ <;> rcases h' with h' | ⟨h1', h2'⟩
  · rw [h] at h'; cases h'; rfl
  · rw [h] at h1'; cases h1'
  · rw [h1] at h'; cases h'
  · rw [h2] at h2'; cases h2'; rfl

theorem denotes_exact {c : Cmdline} {n : Str} {d e : OptionDesc} (h : Denotes c n e) (hd : d ∈ c.desc)
    (he : Exact d n (active c.style Style.longCaseInsensitive) (active c.style Style.shortCaseInsensitive)) : e = d := by
  have hm : d ∈ exacts c.desc n (active c.style Style.longCaseInsensitive) (active c.style Style.shortCaseInsensitive) :=
    List.mem_filter.2 ⟨hd, by simpa using he⟩
  unfold Denotes at h
  dsimp only at h
  rcases h with h | ⟨h, -⟩
  · rw [h] at hm; exact (List.mem_singleton.1 hm).symm
  · rw [h] at hm; cases hm

theorem letter_unique {c : Cmdline} {a : Char} {d e : OptionDesc} (h : DenotesLetter c a d) (h' : DenotesLetter c a e) : d = e := by
  unfold DenotesLetter at h h'
  dsimp only at h h'
  rcases h with h | ⟨h1, h2⟩ <;> rcases h' with h' | ⟨h1', h2'⟩
  · rw [h] at h'; cases h'; rfl
  · rw [h] at h1'; cases h1'
  · rw [h1] at h'; cases h'
  · rw [h2] at h2'; cases h2'; rfl

theorem letter_unknown {c : Cmdline} {a : Char} {d : OptionDesc} (h : DenotesLetter c a d) (hu : UnknownShort c a) : False := by
  unfold DenotesLetter at h
  dsimp only at h
  rcases h with h | ⟨-, h⟩
  · have hm : d ∈ exacts c.desc ['-', a] false (active c.style Style.shortCaseInsensitive) := by rw [h]; simp
    obtain ⟨h1, h2⟩ := List.mem_filter.1 hm
    exact (hu d h1).1 (by simpa using h2)
  · have hm : d ∈ approximates c.desc ['-', a] false false (active c.style Style.shortCaseInsensitive) := by rw [h]; simp
    obtain ⟨h1, h2⟩ := List.mem_filter.1 hm
    exact (hu d h1).2 (by simpa using (by simpa using h2 : ¬ _ ∧ _).2)

variable {c : Cmdline} {pre post : List OptionDesc} {d : OptionDesc} {K : Str}

theorem denotes (hdesc : c.desc = pre ++ post) {n : Str} {e : OptionDesc} (h : Denotes (more c pre post d) n e) (hne : e ≠ d) : Denotes c n e := by
  unfold Denotes at h ⊢
  dsimp only [more] at h ⊢
  rw [hdesc]
  rcases h with h | ⟨h1, h2⟩
  · exact .inl (one_of h hne)
  · exact .inr ⟨none_of h1, one_of h2 hne⟩

theorem unknown (hdesc : c.desc = pre ++ post) {n : Str} (h : Unknown (more c pre post d) n) : Unknown c n := by
  intro e he
  refine h e ?_
  rw [hdesc] at he
  show e ∈ pre ++ d :: post
  rcases List.mem_append.1 he with he | he <;> simp [he]

theorem unknownShort (hdesc : c.desc = pre ++ post) {a : Char} (h : UnknownShort (more c pre post d) a) : UnknownShort c a := by
  intro e he
  refine h e ?_
  rw [hdesc] at he
  show e ∈ pre ++ d :: post
  rcases List.mem_append.1 he with he | he <;> simp [he]

theorem letter (hdesc : c.desc = pre ++ post) {a : Char} {e : OptionDesc} (h : DenotesLetter (more c pre post d) a e) (hne : e ≠ d) :
    DenotesLetter c a e := by
  unfold DenotesLetter at h ⊢
  dsimp only [more] at h ⊢
  rw [hdesc]
  rcases h with h | ⟨h1, h2⟩
  · exact .inl (one_of h hne)
  · exact .inr ⟨none_of h1, one_of h2 hne⟩

/-- The option is reported under its canonical name. -/
theorem canonical (hK : CanonicalName d K) (n : Str) : reportedKey d n = K := by
  unfold reportedKey
  rcases hK with ⟨h, hs⟩ | ⟨h, hs⟩
  · rw [h]; dsimp only; rw [if_neg hs]
  · rw [h]; exact hs

/-- A letter that stands for the option is also its name for the lookup that decides. -/
theorem letter_exact (hstar : ∀ n ∈ d.longNames, n.getLast? ≠ some '*')
    (hcase : active c.style Style.longCaseInsensitive = active c.style Style.shortCaseInsensitive) {a : Char}
    (h : DenotesLetter (more c pre post d) a d) :
    Exact d ['-', a] (active c.style Style.longCaseInsensitive) (active c.style Style.shortCaseInsensitive) := by
  have hap : ¬ Approximate d ['-', a] false false := by
    rintro ⟨n, hn, -, ⟨hf, -⟩ | ⟨stem, e, -⟩⟩
    · cases hf
    · simp only [fold, Bool.false_eq_true, if_false] at e
      exact hstar n hn (by rw [e]; simp)
  have hex : Exact d ['-', a] false (active c.style Style.shortCaseInsensitive) := by
    unfold DenotesLetter at h
    dsimp only [more] at h
    rcases h with h | ⟨-, h⟩
    · have hm : d ∈ exacts (pre ++ d :: post) ['-', a] false (active c.style Style.shortCaseInsensitive) := by rw [h]; simp
      exact by simpa using (List.mem_filter.1 hm).2
    · have hm : d ∈ approximates (pre ++ d :: post) ['-', a] false false (active c.style Style.shortCaseInsensitive) := by rw [h]; simp
      exact absurd (by simpa using (List.mem_filter.1 hm).2 : ¬ _ ∧ _).2 hap
  rw [hcase]
  rcases hex with ⟨n, h1, h2, h3⟩ | h
  · refine .inl ⟨n, h1, h2, ?_⟩
    simp only [fold, Bool.false_eq_true, if_false] at h3
    rw [h3]
  · right
    simp only [fold, Bool.false_eq_true, if_false] at h ⊢
    cases hb : active c.style Style.shortCaseInsensitive with
    | false => rw [hb] at h; simpa using h
    | true =>
      rw [hb] at h
      simp only [if_true] at h ⊢
      rw [← h]
      simp only [List.map_map]
      congr 1
      funext x
      exact (toLower_toLower_char x).symm

theorem denotes_mem {c : Cmdline} {n : Str} {e : OptionDesc} (h : Denotes c n e) : e ∈ c.desc := by
  unfold Denotes at h
  dsimp only at h
  rcases h with h | ⟨-, h⟩
  · exact (List.mem_filter.1 (by unfold exacts at h; rw [h]; simp)).1
  · exact (List.mem_filter.1 (by unfold approximates at h; rw [h]; simp)).1

theorem denotes_unknown {c : Cmdline} {n : Str} {e : OptionDesc} (h : Denotes c n e) (hu : Unknown c n) : False := by
  unfold Denotes at h
  dsimp only at h
  rcases h with h | ⟨-, h⟩
  · have hm : e ∈ exacts c.desc n (active c.style Style.longCaseInsensitive) (active c.style Style.shortCaseInsensitive) := by rw [h]; simp
    obtain ⟨h1, h2⟩ := List.mem_filter.1 hm
    exact (hu e h1).1 (by simpa using h2)
  · have hm : e ∈ approximates c.desc n (active c.style Style.allowGuessing) (active c.style Style.longCaseInsensitive)
        (active c.style Style.shortCaseInsensitive) := by rw [h]; simp
    obtain ⟨h1, h2⟩ := List.mem_filter.1 hm
    exact (hu e h1).2 (by simpa using (by simpa using h2 : ¬ _ ∧ _).2)

theorem mem_more : d ∈ (more c pre post d).desc := by
  show d ∈ pre ++ d :: post
  simp

/-- The letter of an option that is not reported under `K` does not stand for the option. -/
theorem letter_other (hK : CanonicalName d K) (hstar : ∀ n ∈ d.longNames, n.getLast? ≠ some '*')
    (hcase : active c.style Style.longCaseInsensitive = active c.style Style.shortCaseInsensitive) {i : Item} {taken : List Str} {o : Opt}
    (h : Completes (more c pre post d) i taken o) (ho : o.unregistered = false → o.stringKey ≠ K) {a : Char} (hi : i.name = ['-', a])
    {e : OptionDesc} (he : DenotesLetter (more c pre post d) a e) : e ≠ d := by
  rintro rfl
  have hex := letter_exact hstar hcase he
  cases h with
  | nameless h0 => rw [hi] at h0; cases h0
  | unknown h0 hn _ =>
    rw [hi] at hn
    exact (hn e mem_more).1 hex
  | known d2 taken h0 hd hlen htake hsw =>
    rw [hi] at hd
    have := denotes_exact hd mem_more hex
    subst this
    exact ho rfl (canonical hK _)

theorem group_ne {c : Cmdline} {tok s : Str} {items : List Item} (h : Group c tok s items) : items ≠ [] := by
  cases h <;> simp

theorem group_letters (hdesc : c.desc = pre ++ post) {a : Char} (hne : ∀ e, DenotesLetter (more c pre post d) a e → e ≠ d)
    (h : (∃ e, DenotesLetter (more c pre post d) a e) ∨ UnknownShort (more c pre post d) a) : (∃ e, DenotesLetter c a e) ∨ UnknownShort c a := by
  rcases h with ⟨e, he⟩ | h
  · exact .inl ⟨e, letter hdesc he (hne e he)⟩
  · exact .inr (unknownShort hdesc h)

theorem group (hdesc : c.desc = pre ++ post) (hK : CanonicalName d K) (hstar : ∀ n ∈ d.longNames, n.getLast? ≠ some '*')
    (hcase : active c.style Style.longCaseInsensitive = active c.style Style.shortCaseInsensitive) {tok s : Str} {items : List Item}
    (h : Group (more c pre post d) tok s items) {taken : List Str} {os : List Opt} (hc : CompletesAll (more c pre post d) items taken os)
    (ho : ∀ o ∈ os, o.unregistered = false → o.stringKey ≠ K) : Group c tok s items := by
  induction h generalizing os with
  | last a h =>
    cases hc with
    | one hc => exact .last a (group_letters hdesc (fun e he => letter_other hK hstar hcase hc (ho _ (by simp)) rfl he) h)
    | cons _ t => cases t
  | value a v hv h hs =>
    cases hc with
    | one hc =>
      have hother : ∀ e, DenotesLetter (more c pre post d) a e → e ≠ d := fun e he => letter_other hK hstar hcase hc (ho _ (by simp)) rfl he
      refine .value a v hv (group_letters hdesc hother h) ?_
      rintro ⟨h1, e, h2, h3⟩
      rcases h with ⟨e', he'⟩ | h
      · have := letter_unique (letter hdesc he' (hother e' he')) h2
        subst this
        exact hs ⟨h1, e', he', h3⟩
      · exact letter_unknown h2 (unknownShort hdesc h)
    | cons _ t => cases t
  | switch a t items ht h g ih =>
    cases hc with
    | one _ => exact absurd rfl (group_ne g)
    | cons hc t' =>
      obtain ⟨h1, e, h2, h3⟩ := h
      refine .switch a t items ht ⟨h1, e, letter hdesc h2 (letter_other hK hstar hcase hc (ho _ (by simp)) rfl h2), h3⟩ ?_
      exact ih t' fun o hm => ho o (by simp [hm])

theorem group_exists (hl : LettersApart c) (tok : Str) (a : Char) (t : Str) : ∃ items, Group c tok (a :: t) items := by
  induction t generalizing a with
  | nil => exact ⟨_, .last a (hl a)⟩
  | cons b t ih =>
    by_cases hs : GroupSwitch c a
    · obtain ⟨items, g⟩ := ih b
      exact ⟨_, .switch a (b :: t) items (by simp) hs g⟩
    · exact ⟨_, .value a (b :: t) (by simp) (hl a) hs⟩

theorem notDisguised (hdis : ¬ Enabled c Style.allowLongDisguise) (tok : Str) : NotDisguised c tok := fun h => absurd h hdis

theorem plain (hdis : ¬ Enabled c Style.allowLongDisguise) {tok : Str} (h : Plain (more c pre post d) tok) : Plain c tok :=
  ⟨h.unclaimed, h.long, notDisguised hdis tok, h.short, h.slash⟩

theorem takeable (hdesc : c.desc = pre ++ post) (hdis : ¬ Enabled c Style.allowLongDisguise) (hl : LettersApart c) {v : Str}
    (h : Takeable (more c pre post d) v) : Takeable c v := by
  rcases h with h | ⟨⟨items, h⟩, hu⟩
  · exact .inl (plain hdis h)
  · refine .inr ⟨?_, unknown hdesc hu⟩
    cases h with
    | additional f hf hn => exact ⟨_, .additional f hf hn⟩
    | long name hu hs ht hn h0 => exact ⟨_, .long name hu hs ht hn h0⟩
    | longEq name v hu hs ht hn hv => exact ⟨_, .longEq name v hu hs ht hn hv⟩
    | disguised _ _ _ _ hs => exact absurd hs hdis
    | disguisedEq _ _ _ _ _ hs => exact absurd hs hdis
    | short a t items hu hs ht ha _ _ =>
      obtain ⟨items, g⟩ := group_exists hl v a t
      exact ⟨items, .short a t items hu hs ht ha (notDisguised hdis _) g⟩
    | slash a t hu hs ht _ => exact ⟨_, .slash a t hu hs ht (notDisguised hdis _)⟩

theorem completes (hdesc : c.desc = pre ++ post) (hK : CanonicalName d K) (hdis : ¬ Enabled c Style.allowLongDisguise) (hl : LettersApart c)
    {i : Item} {taken : List Str} {o : Opt} (h : Completes (more c pre post d) i taken o) (ho : o.unregistered = false → o.stringKey ≠ K) :
    Completes c i taken o := by
  cases h with
  | nameless h => exact .nameless h
  | unknown h hn hu => exact .unknown h (unknown hdesc hn) hu
  | known e taken h hd hlen htake hsw =>
    have hne : e ≠ d := by
      rintro rfl
      exact ho rfl (canonical hK _)
    exact .known e taken h (denotes hdesc hd hne) hlen (fun v hv => takeable hdesc hdis hl (htake v hv)) hsw

theorem completesAll (hdesc : c.desc = pre ++ post) (hK : CanonicalName d K) (hdis : ¬ Enabled c Style.allowLongDisguise) (hl : LettersApart c)
    {items : List Item} {taken : List Str} {os : List Opt} (h : CompletesAll (more c pre post d) items taken os)
    (ho : ∀ o ∈ os, o.unregistered = false → o.stringKey ≠ K) : CompletesAll c items taken os := by
  induction h with
  | one h => exact .one (completes hdesc hK hdis hl h (ho _ (by simp)))
  | cons h t ih => exact .cons (completes hdesc hK hdis hl h (ho _ (by simp))) (ih fun o hm => ho o (by simp [hm]))

theorem reads (hdesc : c.desc = pre ++ post) (hK : CanonicalName d K) (hstar : ∀ n ∈ d.longNames, n.getLast? ≠ some '*')
    (hcase : active c.style Style.longCaseInsensitive = active c.style Style.shortCaseInsensitive) (hdis : ¬ Enabled c Style.allowLongDisguise)
    (hl : LettersApart c) {args : List Str} {os : List Opt} (h : Reads (more c pre post d) args os)
    (ho : ∀ o ∈ os, o.unregistered = false → o.stringKey ≠ [] → o.stringKey ≠ K) (hK0 : K ≠ []) : Reads c args os := by
  induction h with
  | nil => exact .nil
  | plain h hd _ ih => exact .plain (plain hdis h) hd (ih fun o hm => ho o (by simp [hm]))
  | terminator h => exact .terminator h
  | @option tok items taken os rest more' h hc t ih =>
    have ho' : ∀ o ∈ os, o.unregistered = false → o.stringKey ≠ K := by
      intro o hm hu he
      exact ho o (by simp [hm]) hu (by rw [he]; exact hK0) he
    refine .option ?_ (completesAll hdesc hK hdis hl hc ho') (ih fun o hm => ho o (by simp [hm]))
    cases h with
    | additional f hf hn => exact .additional f hf hn
    | long name hu hs ht hn h0 => exact .long name hu hs ht hn h0
    | longEq name v hu hs ht hn hv => exact .longEq name v hu hs ht hn hv
    | disguised _ _ _ _ hs => exact absurd hs hdis
    | disguisedEq _ _ _ _ _ hs => exact absurd hs hdis
    | short a t items hu hs ht ha _ hg => exact .short a t items hu hs ht ha (notDisguised hdis _) (group hdesc hK hstar hcase hg hc ho')
    | slash a t hu hs ht _ => exact .slash a t hu hs ht (notDisguised hdis _)

/-- The name an option is reported under is not a name of the option that is left out. -/
theorem key_other (hne : ∀ e ∈ (more c pre post d).desc, ∀ name, name ≠ [] → reportedKey e name ≠ [])
    (hK : CanonicalName d K) (hcase : active c.style Style.longCaseInsensitive = active c.style Style.shortCaseInsensitive)
    {i : Item} {taken : List Str} {o : Opt} (h : Completes (more c pre post d) i taken o) (ho : o.unregistered = false → o.stringKey ≠ K)
    (h0 : o.stringKey ≠ []) : ¬ Denotes (more c pre post d) o.stringKey d := by
  intro hd
  cases h with
  | nameless h => exact h0 rfl
  | unknown h hn hu => exact denotes_unknown hd hn
  | known e taken h he hlen htake hsw =>
    have hed : e ≠ d := by
      rintro rfl
      exact ho rfl (canonical hK _)
    dsimp only at hd h0 ho
    have hmem := denotes_mem he
    unfold reportedKey at hd h0
    cases hh : e.longNames.head? with
    | some n =>
      rw [hh] at hd h0
      dsimp only at hd h0
      by_cases hs : '*' ∈ n
      · rw [if_pos hs] at hd
        exact hed (denotes_unique he hd)
      · rw [if_neg hs] at hd h0
        exact hed (denotes_exact hd hmem (.inl ⟨n, List.mem_of_mem_head? hh, h0, rfl⟩)).symm
    | none =>
      rw [hh] at hd
      dsimp only at hd
      refine hed (denotes_exact hd hmem (.inr ?_)).symm
      show fold (active c.style Style.shortCaseInsensitive) e.shortName = fold (active c.style Style.longCaseInsensitive) e.shortName
      rw [hcase]

theorem reads_other (hne : ∀ e ∈ (more c pre post d).desc, ∀ name, name ≠ [] → reportedKey e name ≠ [])
    (hK : CanonicalName d K) (hcase : active c.style Style.longCaseInsensitive = active c.style Style.shortCaseInsensitive)
    {args : List Str} {os : List Opt} (h : Reads (more c pre post d) args os)
    (ho : ∀ o ∈ os, o.unregistered = false → o.stringKey ≠ [] → o.stringKey ≠ K) :
    ∀ o ∈ os, o.stringKey ≠ [] → ¬ Denotes (more c pre post d) o.stringKey d := by
  induction h with
  | nil => intro o hm; cases hm
  | plain h hd _ ih =>
    intro o hm h0
    rcases List.mem_cons.1 hm with rfl | hm
    · exact absurd rfl h0
    · exact ih (fun o hm => ho o (by simp [hm])) o hm h0
  | terminator h =>
    intro o hm h0
    obtain ⟨t, -, rfl⟩ := List.mem_map.1 hm
    exact absurd rfl h0
  | @option tok items taken os rest more' h hc t ih =>
    intro o hm h0
    rcases List.mem_append.1 hm with hm | hm
    · have : ∃ i tk, Completes (more c pre post d) i tk o := by
        clear ih ho t h
        induction hc with
        | one h => rw [List.mem_singleton] at hm; subst hm; exact ⟨_, _, h⟩
        | cons h t ih2 =>
          rename_i os2 _
          rcases List.mem_cons.1 hm with rfl | hm
          · exact ⟨_, _, h⟩
          · exact ih2 (by simp [hm]) hm
      obtain ⟨i, tk, hco⟩ := this
      exact key_other hne hK hcase hco (fun hu => ho o (by simp [hm]) hu h0) h0
    · exact ih (fun o hm => ho o (by simp [hm])) o hm h0

theorem gathers (hdesc : c.desc = pre ++ post) {os os' : List Opt} (h : Gathers (more c pre post d) os os')
    (ho : ∀ o ∈ os, o.stringKey ≠ [] → ¬ Denotes (more c pre post d) o.stringKey d) : Gathers c os os' := by
  induction h with
  | nil => exact .nil
  | positional h _ ih => exact .positional h (ih fun o hm => ho o (by simp [hm]))
  | @keep o os os' h hr _ ih =>
    refine .keep h ?_ (ih fun o hm => ho o (by simp [hm]))
    rcases hr with hr | ⟨e, he, hr⟩
    · exact .inl (unknown hdesc hr)
    · refine .inr ⟨e, denotes hdesc he ?_, hr⟩
      rintro rfl
      exact ho o (by simp) h he
  | @take o ps os os' e h hd hr hp hmax _ ih =>
    refine .take e h (denotes hdesc hd ?_) hr hp hmax (ih fun o hm => ho o (by simp [hm]))
    rintro rfl
    exact ho o (by simp) h hd

theorem labels {n : Nat} {os res : List Opt} (h : Labels (more c pre post d) n os res) : Labels c n os res := by
  induction h with
  | nil => exact .nil
  | named h _ ih => exact .named h ih
  | positional name h hn _ ih => exact .positional name h hn ih

theorem gathers_keeps {c : Cmdline} {os os' : List Opt} (h : Gathers c os os') :
    ∀ o ∈ os, o.stringKey ≠ [] → ∃ o' ∈ os', o'.stringKey = o.stringKey ∧ o'.unregistered = o.unregistered ∧ o'.positionKey = o.positionKey := by
  induction h with
  | nil => intro o hm; cases hm
  | positional h _ ih =>
    intro o hm h0
    rcases List.mem_cons.1 hm with rfl | hm
    · exact absurd h h0
    · obtain ⟨o', h1, h2⟩ := ih o hm h0; exact ⟨o', by simp [h1], h2⟩
  | keep h _ _ ih =>
    intro o hm h0
    rcases List.mem_cons.1 hm with rfl | hm
    · exact ⟨_, by simp, rfl, rfl, rfl⟩
    · obtain ⟨o', h1, h2⟩ := ih o hm h0; exact ⟨o', by simp [h1], h2⟩
  | take e h _ _ hp _ _ ih =>
    intro o hm h0
    rcases List.mem_cons.1 hm with rfl | hm
    · exact ⟨_, List.mem_cons_self .., rfl, rfl, rfl⟩
    · rcases List.mem_append.1 hm with hm | hm
      · exact absurd (hp o hm).1 h0
      · obtain ⟨o', h1, h2⟩ := ih o hm h0; exact ⟨o', by simp [h1], h2⟩

theorem labels_keeps {c : Cmdline} {n : Nat} {os res : List Opt} (h : Labels c n os res) :
    ∀ o ∈ os, o.stringKey ≠ [] → ∃ o' ∈ res, o'.stringKey = o.stringKey ∧ o'.unregistered = o.unregistered ∧ o'.positionKey = o.positionKey := by
  induction h with
  | nil => intro o hm; cases hm
  | named h _ ih =>
    intro o hm h0
    rcases List.mem_cons.1 hm with rfl | hm
    · exact ⟨_, List.mem_cons_self .., rfl, rfl, rfl⟩
    · obtain ⟨o', h1, h2⟩ := ih o hm h0; exact ⟨o', by simp [h1], h2⟩
  | positional name h _ _ ih =>
    intro o hm h0
    rcases List.mem_cons.1 hm with rfl | hm
    · exact absurd h h0
    · obtain ⟨o', h1, h2⟩ := ih o hm h0; exact ⟨o', by simp [h1], h2⟩

end Unused

/-- **C133.** Let `d` be an option without wildcards, reported under its canonical name `K`. If a command line is accepted with `d` declared, and no
option in the result is reported under `K`, then it is accepted without `d` too, with the same result. (Long options behind a single dash are not
enabled, names are folded alike or not at all, and no letter is shared by two of the other options.) -/
theorem C133_unused (c : Cmdline) (hs : c.styleParser = none) (pre post : List OptionDesc) (hdesc : c.desc = pre ++ post) (d : OptionDesc)
    (K : Str) (hK : CanonicalName d K) (hstar : ∀ n ∈ d.longNames, n.getLast? ≠ some '*')
    (hne : ∀ e ∈ pre ++ d :: post, ∀ name, name ≠ [] → reportedKey e name ≠ [])
    (hcase : active c.style Style.longCaseInsensitive = active c.style Style.shortCaseInsensitive)
    (hdis : ¬ Enabled c Style.allowLongDisguise) (hl : LettersApart c) (args : List Str) (hlen : args.length < 2147483648) (res : List Opt)
    (h : ({ c with desc := pre ++ d :: post } : Cmdline).run args = .ok res)
    (hres : ∀ o ∈ res, o.positionKey = -1 → o.unregistered = false → o.stringKey ≠ K) : c.run args = .ok res := by
  obtain ⟨os, os', h1, h2, h3⟩ := (C61_grammar (Unused.more c pre post d) hs hne args hlen res).1 h
  have hK0 : K ≠ [] := by
    rw [← Unused.canonical hK ['x']]
    exact hne d (by simp) _ (by simp)
  have ho : ∀ o ∈ os, o.unregistered = false → o.stringKey ≠ [] → o.stringKey ≠ K := by
    intro o hm hu h0
    have hp := Cmdline.reads_named h1 o hm h0
    obtain ⟨o1, m1, a1, b1, c1⟩ := Unused.gathers_keeps h2 o hm h0
    obtain ⟨o2, m2, a2, b2, c2⟩ := Unused.labels_keeps h3 o1 m1 (by rw [a1]; exact h0)
    rw [← a1, ← a2]
    exact hres o2 m2 (by rw [c2, c1, hp]) (by rw [b2, b1, hu])
  refine (C61_grammar c hs ?_ args hlen res).2 ⟨os, os', ?_, ?_, Unused.labels h3⟩
  · intro e he
    refine hne e ?_
    rw [hdesc] at he
    rcases List.mem_append.1 he with he | he <;> simp [he]
  · exact Unused.reads hdesc hK hstar hcase hdis hl h1 ho hK0
  · exact Unused.gathers hdesc h2 (Unused.reads_other hne hK hcase h1 ho)

/-- **C133, adding:** so a new option changes what an accepted command line means only if it is refused from then on, or gives the new option. -/
theorem C133_added (c : Cmdline) (hs : c.styleParser = none) (pre post : List OptionDesc) (hdesc : c.desc = pre ++ post) (d : OptionDesc)
    (K : Str) (hK : CanonicalName d K) (hstar : ∀ n ∈ d.longNames, n.getLast? ≠ some '*')
    (hne : ∀ e ∈ pre ++ d :: post, ∀ name, name ≠ [] → reportedKey e name ≠ [])
    (hcase : active c.style Style.longCaseInsensitive = active c.style Style.shortCaseInsensitive)
    (hdis : ¬ Enabled c Style.allowLongDisguise) (hl : LettersApart c) (args : List Str) (hlen : args.length < 2147483648) (old new : List Opt)
    (h : c.run args = .ok old) (h' : ({ c with desc := pre ++ d :: post } : Cmdline).run args = .ok new) :
    new = old ∨ ∃ o ∈ new, o.positionKey = -1 ∧ o.unregistered = false ∧ o.stringKey = K := by
  by_cases hu : ∃ o ∈ new, o.positionKey = -1 ∧ o.unregistered = false ∧ o.stringKey = K
  · exact .inr hu
  · left
    have := C133_unused c hs pre post hdesc d K hK hstar hne hcase hdis hl args hlen new h' fun o ho h1 h2 h3 => hu ⟨o, ho, h1, h2, h3⟩
    rw [h] at this
    exact (Except.ok.inj this).symm

theorem Unused.accepts {pre post : List OptionDesc} {d : OptionDesc} {n : Str} (h : Accepts (pre ++ d :: post) n) (hd : ¬ Accepts [d] n) :
    Accepts (pre ++ post) n := by
  obtain ⟨e, he, h⟩ := h
  rcases List.mem_append.1 he with he | he
  · exact ⟨e, by simp [he], h⟩
  · rcases List.mem_cons.1 he with rfl | he
    · exact absurd ⟨e, by simp, h⟩ hd
    · exact ⟨e, by simp [he], h⟩

theorem Unused.accepts_more {pre post : List OptionDesc} {d : OptionDesc} {n : Str} (h : Accepts (pre ++ post) n) : Accepts (pre ++ d :: post) n := by
  obtain ⟨e, he, h⟩ := h
  refine ⟨e, ?_, h⟩
  rcases List.mem_append.1 he with he | he <;> simp [he]

/-- **C133, configuration files:** if a configuration file is read with `d` declared (a wildcard, perhaps), and no entry is one for `d`, it is read
without `d` too, with the same result. -/
theorem C133_config_file (text : Str) (pre post : List OptionDesc) (d : OptionDesc) (au : Bool) (os : List Opt)
    (h : parseConfigFile text (pre ++ d :: post) au = .ok { desc := pre ++ d :: post, options := os })
    (hu : ∀ o ∈ os, o.unregistered = false → ¬ Accepts [d] o.stringKey) :
    parseConfigFile text (pre ++ post) au = .ok { desc := pre ++ post, options := os } := by
  obtain ⟨h1, h2, ls, last, os', h3, h4, h5, h6, h7⟩ := (C64_accepted text (pre ++ d :: post) au _).1 h
  cases h7
  refine (C64_accepted text (pre ++ post) au _).2 ⟨?_, ?_, ls, last, os, h3, h4, h5, ?_, rfl⟩
  · intro e he
    refine h1 e ?_
    rcases List.mem_append.1 he with he | he <;> simp [he]
  · rintro ⟨d1, m1, d2, m2, hh⟩
    refine h2 ⟨d1, ?_, d2, ?_, hh⟩
    · rcases List.mem_append.1 m1 with m1 | m1 <;> simp [m1]
    · rcases List.mem_append.1 m2 with m2 | m2 <;> simp [m2]
  · clear h3 h4 h5 h
    generalize ([] : Str) = section_, ls ++ [last] = lines at h6 ⊢
    induction h6 with
    | nil => exact .nil
    | blank h _ ih => exact .blank h (ih hu)
    | header s h hs _ ih => exact .header s h hs (ih hu)
    | known s n v h hi ha _ ih =>
      exact .known s n v h hi (Unused.accepts ha (hu _ (List.mem_cons_self ..) rfl)) (ih fun o ho => hu o (by simp [ho]))
    | unknown s n v h hi ha hau _ ih =>
      exact .unknown s n v h hi (fun hh => ha (Unused.accepts_more hh)) hau (ih fun o ho => hu o (by simp [ho]))

/-- Why long options behind a single dash are left out: with `foo` declared, the token `-foo` after `--val` is taken as its value (it looks like an
option, but `-foo` is the name of none); without `foo` looking at the token fails already, since `foo` abbreviates two names. -/
theorem C133_disguise : ∃ (c : Cmdline) (d : OptionDesc) (res : List Opt) (f : Fail), c.styleParser = none ∧
    ({ c with desc := c.desc ++ [d] } : Cmdline).run [str% "--val", str% "-foo"] = .ok res ∧ CanonicalName d (str% "foo") ∧
      (∀ o ∈ res, o.stringKey ≠ str% "foo") ∧ c.run [str% "--val", str% "-foo"] = .error f :=
  ⟨{ desc := [Test.od "val" (Test.sem Test.vstr), Test.od "foobar" Test.unt, Test.od "foobaz" Test.unt], style := 503 ||| Style.allowGuessing ||| Style.allowLongDisguise },
    Test.od "foo" Test.unt, _, _, rfl, rfl, .inl ⟨rfl, by decide⟩, by decide, rfl⟩

/-- Options `out,o` and `verbose,v`. -/
def Ex.unusedC : Cmdline := { desc := [Test.od "out,o" (Test.sem Test.vstr), Test.od "verbose,v" Test.unt] }

theorem Ex.unused_letters : LettersApart Ex.unusedC := by
  intro a
  by_cases ho : a = 'o'
  · subst ho; exact .inl ⟨Test.od "out,o" (Test.sem Test.vstr), .inl rfl⟩
  · by_cases hv : a = 'v'
    · subst hv; exact .inl ⟨Test.od "verbose,v" Test.unt, .inl rfl⟩
    · right
      intro d hd
      have e1 : (Test.od "out,o" (Test.sem Test.vstr)).longNames = [str% "out"] := rfl
      have e2 : (Test.od "verbose,v" Test.unt).longNames = [str% "verbose"] := rfl
      have e3 : (Test.od "out,o" (Test.sem Test.vstr)).shortName = str% "-o" := rfl
      have e4 : (Test.od "verbose,v" Test.unt).shortName = str% "-v" := rfl
      have hsi : active Ex.unusedC.style Style.shortCaseInsensitive = false := by decide
      rw [hsi]
      simp only [Ex.unusedC, List.mem_cons, List.not_mem_nil, or_false] at hd
      rcases hd with rfl | rfl
      · constructor
        · rintro (⟨n, hn, -, h⟩ | h)
          · rw [e1, List.mem_singleton] at hn; subst hn; simp [fold] at h
          · rw [e3] at h; simp [fold] at h; exact ho h.symm
        · rintro ⟨n, hn, -, ⟨h, -⟩ | ⟨stem, h, -⟩⟩
          · cases h
          · rw [e1, List.mem_singleton] at hn
            subst hn
            have := congrArg List.getLast? h
            simp [fold] at this
      · constructor
        · rintro (⟨n, hn, -, h⟩ | h)
          · rw [e2, List.mem_singleton] at hn; subst hn; simp [fold] at h
          · rw [e4] at h; simp [fold] at h; exact hv h.symm
        · rintro ⟨n, hn, -, ⟨h, -⟩ | ⟨stem, h, -⟩⟩
          · cases h
          · rw [e2, List.mem_singleton] at hn
            subst hn
            have := congrArg List.getLast? h
            simp [fold] at this

/-- Declaring `verb,x` changes what `--verb` means, but not silently: the result then names the new option. -/
example : ∃ old new, Ex.unusedC.run [str% "--verb", str% "-o", str% "f"] = .ok old ∧
    ({ Ex.unusedC with desc := Ex.unusedC.desc ++ [Test.od "verb,x" Test.unt] } : Cmdline).run [str% "--verb", str% "-o", str% "f"] = .ok new ∧
      old.map (·.stringKey) = [str% "verbose", str% "out"] ∧ new.map (·.stringKey) = [str% "verb", str% "out"] := ⟨_, _, rfl, rfl, rfl, rfl⟩

/-- A configuration file without entry for the family `foo*`. -/
example : ∃ os, parseConfigFile (str% "[s]\nx=1\n") [Test.od "s.x" (Test.sem Test.vstr), Test.od "foo*" (Test.sem Test.vstr)] false
      = .ok { desc := [Test.od "s.x" (Test.sem Test.vstr), Test.od "foo*" (Test.sem Test.vstr)], options := os } ∧
    os.map (·.stringKey) = [str% "s.x"] ∧
    parseConfigFile (str% "[s]\nx=1\n") [Test.od "s.x" (Test.sem Test.vstr)] false
      = .ok { desc := [Test.od "s.x" (Test.sem Test.vstr)], options := os } := ⟨_, rfl, rfl, rfl⟩

/-- A command line that gives neither `verb` nor `x`. -/
example : ∃ res, ({ Ex.unusedC with desc := Ex.unusedC.desc ++ [Test.od "verb,x" Test.unt] } : Cmdline).run [str% "-v", str% "-o", str% "f"] = .ok res ∧
    Ex.unusedC.run [str% "-v", str% "-o", str% "f"] = .ok res := by
  refine ⟨_, rfl, C133_unused Ex.unusedC rfl Ex.unusedC.desc [] (by simp) (Test.od "verb,x" Test.unt) (str% "verb") (.inl ⟨rfl, by decide⟩) (by decide)
    ?_ (by decide) (by unfold Enabled; decide) Ex.unused_letters [str% "-v", str% "-o", str% "f"] (by decide) _ rfl (by decide)⟩
  intro e he name _
  simp only [Ex.unusedC, List.cons_append, List.nil_append, List.mem_cons, List.not_mem_nil, or_false] at he
  rcases he with rfl | rfl | rfl
  · show str% "out" ≠ []
    decide
  · show str% "verbose" ≠ []
    decide
  · show str% "verb" ≠ []
    decide

end PO
