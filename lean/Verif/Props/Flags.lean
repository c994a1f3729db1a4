import Verif.Spec.Flags
import Verif.Lemmas.FlagProbes
import Verif.Props.Style
import Verif.Props.Tokens
/-
C110: a style is a set of flags.
-/
namespace PO
open Spec

theorem active_or (a b f : Nat) : active (a ||| b) f = (active a f || active b f) := by
  unfold active
  rw [Nat.and_or_distrib_right]
  by_cases ha : a &&& f = 0
  · rw [ha]; simp
  · have : (a &&& f) ||| (b &&& f) ≠ 0 := fun h => ha (Nat.or_eq_zero_iff.mp h).1
    rw [bne_iff_ne.mpr this, bne_iff_ne.mpr ha]; rfl

theorem active_foldl (l : List Nat) (a f : Nat) : active (l.foldl (· ||| ·) a) f = (active a f || l.any (active · f)) := by
  induction l generalizing a with
  | nil => simp
  | cons g l ih => rw [List.foldl_cons, ih, active_or, List.any_cons, Bool.or_assoc]

theorem active_flag : ∀ g ∈ flags, ∀ f ∈ flags, active g f = true ↔ g = f := by decide

theorem active_joined (l : List Nat) (hl : ∀ g ∈ l, g ∈ flags) (f : Nat) (hf : f ∈ flags) : active (joined l) f = true ↔ f ∈ l := by
  unfold joined
  rw [active_foldl]
  simp only [Bool.or_eq_true, List.any_eq_true]
  constructor
  · rintro (h | ⟨g, hg, h⟩)
    · simp [active] at h
    · rwa [← (active_flag g (hl g hg) f hf).mp h]
  · intro h
    exact Or.inr ⟨f, h, (active_flag f hf f hf).mpr rfl⟩

/-- A style made of flags with `|` has exactly these flags, the ready-made styles have exactly the flags they are documented with. -/
theorem C110_flags :
    (∀ l : List Nat, (∀ g ∈ l, g ∈ flags) → ∀ f ∈ flags, active (joined l) f = true ↔ f ∈ l) ∧
    (∀ f ∈ flags, active Style.unixStyle f = true ↔ f ∈ [Style.allowShort, Style.shortAllowAdjacent, Style.shortAllowNext, Style.allowLong,
      Style.longAllowAdjacent, Style.longAllowNext, Style.allowSticky, Style.allowGuessing, Style.allowDashForShort]) ∧
    (∀ f ∈ flags, active Style.defaultStyle f = active Style.unixStyle f) ∧
    (∀ f ∈ flags, active Style.caseInsensitive f = true ↔ f = Style.longCaseInsensitive ∨ f = Style.shortCaseInsensitive) :=
  ⟨active_joined, by decide, by decide, by decide⟩

example : active (joined [Style.allowGuessing, Style.allowLong, Style.allowGuessing]) Style.allowGuessing = true ∧
    active (joined [Style.allowGuessing, Style.allowLong, Style.allowGuessing]) Style.allowSticky = false := by decide

theorem checkStyle_congr (s s' : Nat) (h : ∀ f ∈ flags, active s f = active s' f) : checkStyle s = checkStyle s' := by
  unfold checkStyle
  rw [h _ (by decide : Style.allowLong ∈ flags), h _ (by decide : Style.allowLongDisguise ∈ flags),
    h _ (by decide : Style.longAllowAdjacent ∈ flags), h _ (by decide : Style.longAllowNext ∈ flags),
    h _ (by decide : Style.allowShort ∈ flags), h _ (by decide : Style.shortAllowAdjacent ∈ flags),
    h _ (by decide : Style.shortAllowNext ∈ flags), h _ (by decide : Style.allowDashForShort ∈ flags),
    h _ (by decide : Style.allowSlashForShort ∈ flags)]

/-- Styles with the same flags are accepted or refused alike, and every command line is read alike: order and repetition of the flags do
not matter, nor do further bits. -/
theorem C110_set (c : Cmdline) (s s' : Nat) (h0 : s ≠ 0) (h0' : s' ≠ 0) (h : ∀ f ∈ flags, (active s f = true ↔ active s' f = true)) :
    (∀ e, c.setStyle s = .error e ↔ c.setStyle s' = .error e) ∧
    ∀ d d', c.setStyle s = .ok d → c.setStyle s' = .ok d' → ∀ args, d.run args = d'.run args := by
  have h : ∀ f ∈ flags, active s f = active s' f := fun f hf => Bool.eq_iff_iff.mpr (h f hf)
  have hc := checkStyle_congr s s' h
  constructor
  · intro e
    unfold Cmdline.setStyle
    dsimp only
    rw [if_neg h0, if_neg h0', hc]
    cases checkStyle s' <;> simp
  · intro d d' hd hd' args
    rw [(C09_style_accepted c s).2.1 d hd, (C09_style_accepted c s').2.1 d' hd', if_neg h0, if_neg h0']
    exact C16_placement_ignored { c with style := s } s' (fun b hb => h b (by revert b; decide)) args

theorem active_xor (s : Nat) : ∀ f ∈ flags, ∀ g ∈ flags, active (s ^^^ f) g = (active s g != (g == f)) := by
  have key : ∀ i j : Nat, active (s ^^^ 2 ^ i) (2 ^ j) = (active s (2 ^ j) != ((2 ^ j : Nat) == 2 ^ i)) := by
    intro i j
    rw [active_two_pow, active_two_pow, Nat.testBit_xor, Nat.testBit_two_pow]
    by_cases h : i = j
    · subst h; simp
    · have : ¬ (2 ^ j = 2 ^ i) := fun e => h ((Nat.pow_right_inj (by decide)).mp e).symm
      rw [beq_eq_false_iff_ne.mpr this, Bool.bne_false, decide_eq_false h, Bool.xor_false]
  intro f hf g hg
  have pow : ∀ f ∈ flags, ∃ i, f = 2 ^ i := by
    intro f hf
    have : ∀ f ∈ flags, ∃ i ∈ List.range 13, f = 2 ^ i := by decide
    obtain ⟨i, _, h⟩ := this f hf
    exact ⟨i, h⟩
  obtain ⟨i, rfl⟩ := pow f hf
  obtain ⟨j, rfl⟩ := pow g hg
  exact key i j

namespace Cmdline

/-- The style with the flag switched. -/
def switched (c : Cmdline) (f : Nat) : Cmdline := { c with style := c.style ^^^ f }

theorem switched_active (c : Cmdline) (f g : Nat) (hf : f ∈ flags) (hg : g ∈ flags) :
    active (c.switched f).style g = (active c.style g != (g == f)) := active_xor _ f hf g hg

theorem switched_other (c : Cmdline) (f g : Nat) (hf : f ∈ flags) (hg : g ∈ flags) (h : g ≠ f) :
    active (c.switched f).style g = active c.style g := by
  rw [switched_active c f g hf hg, beq_eq_false_iff_ne.mpr h, Bool.bne_false]

theorem switched_lookup (c : Cmdline) (f : Nat) (hf : f ∈ flags) (h1 : Style.allowGuessing ≠ f) (h2 : Style.longCaseInsensitive ≠ f)
    (h3 : Style.shortCaseInsensitive ≠ f) (n : Str) : (c.switched f).lookup n = c.lookup n := by
  unfold Cmdline.lookup
  rw [switched_other c f _ hf (by decide) h1, switched_other c f _ hf (by decide) h2, switched_other c f _ hf (by decide) h3]
  rfl

theorem shortLoop_congr (c c' : Cmdline) (h1 : ∀ n, c.findShort n = c'.findShort n)
    (h2 : active c.style Style.allowSticky = active c'.style Style.allowSticky) (tok : Str) (adj name : Str) :
    c.shortLoop tok name adj = c'.shortLoop tok name adj := by
  have h3 : ∀ d, c.takesNoValue d = c'.takesNoValue d := by intro d; unfold takesNoValue; rw [h2]
  induction adj generalizing name with
  | nil => rw [shortLoop, shortLoop, h1]
  | cons a adj ih =>
    rw [shortLoop, shortLoop, h1]
    cases c'.findShort name with
    | error f => rfl
    | ok d => simp only; rw [h3, ih]

theorem switched_agree (c : Cmdline) (f : Nat) (hf : f ∈ flags)
    (hl : Style.allowLong ≠ f) (hd : Style.allowLongDisguise ≠ f) (h1 : Style.allowGuessing ≠ f) (h2 : Style.longCaseInsensitive ≠ f)
    (h3 : Style.shortCaseInsensitive ≠ f)
    (hsd : (active (c.switched f).style Style.allowShort && active (c.switched f).style Style.allowDashForShort) =
      (active c.style Style.allowShort && active c.style Style.allowDashForShort))
    (hss : (active (c.switched f).style Style.allowShort && active (c.switched f).style Style.allowSlashForShort) =
      (active c.style Style.allowShort && active c.style Style.allowSlashForShort))
    (hst : (active c.style Style.allowShort && active c.style Style.allowDashForShort) = true → Style.allowSticky ≠ f)
    (hdi : active c.style Style.allowLongDisguise = true → Style.allowSlashForShort ≠ f) :
    Agree (c.switched f) c := by
  have el := switched_other c f _ hf (by decide) hl
  have ed := switched_other c f _ hf (by decide) hd
  have e2 := switched_other c f _ hf (by decide) h2
  have e3 := switched_other c f _ hf (by decide) h3
  have hlook := switched_lookup c f hf h1 h2 h3
  have hpre : (c.switched f).canonicalPrefix = c.canonicalPrefix := by
    unfold canonicalPrefix
    rw [el, ed, hsd, hss]
  have hlong : (c.switched f).parseLong = c.parseLong := by
    funext args
    cases args with
    | nil => rfl
    | cons tok rest => rw [parseLong, parseLong, hpre]
  have hdis : active c.style Style.allowLongDisguise = true → (c.switched f).parseDisguised = c.parseDisguised := by
    intro hon
    funext args
    cases args with
    | nil => rfl
    | cons tok rest => rw [parseDisguised, parseDisguised, hpre, hlook, hlong, switched_other c f _ hf (by decide) (hdi hon)]
  have hfind : ∀ n, (c.switched f).findShort n = c.findShort n := by
    intro n
    unfold findShort
    rw [e3, hpre]
    rfl
  have hshort : (active c.style Style.allowShort && active c.style Style.allowDashForShort) = true →
      (c.switched f).parseShort = c.parseShort := by
    intro hon
    funext args
    cases args with
    | nil => rfl
    | cons tok rest =>
      rw [parseShort, parseShort, shortLoop_congr _ _ hfind (switched_other c f _ hf (by decide) (hst hon))]
  refine ⟨hpre, fun n => ?_, ?_, rfl, ?_⟩
  · rw [hlook]
    unfold SameLookup
    rcases c.lookup n with e | (_ | d) <;> simp
  · unfold parsers
    rw [el, ed, hsd, hss, hlong]
    congr 3
    · congr 1
      by_cases hon : active c.style Style.allowLongDisguise = true
      · rw [hdis hon]
      · rw [if_neg hon, if_neg hon]
    · by_cases hon : (active c.style Style.allowShort && active c.style Style.allowDashForShort) = true
      · rw [hshort hon]
      · rw [if_neg hon, if_neg hon]
  · funext o
    unfold setCase
    rw [e2, e3]

theorem switched_idle (c : Cmdline) (f : Nat) (hf : f ∈ flags) (h : Idle c.style f) : Agree (c.switched f) c := by
  have other := fun g hg hn => switched_other c f g hf hg hn
  rcases h with rfl | rfl | rfl | rfl | ⟨rfl, h⟩ | ⟨rfl, h⟩ | ⟨rfl, h, h'⟩ | ⟨rfl, h, h'⟩
  iterate 4
    exact switched_agree c _ hf (by decide) (by decide) (by decide) (by decide) (by decide)
      (by rw [other _ (by decide) (by decide), other _ (by decide) (by decide)])
      (by rw [other _ (by decide) (by decide), other _ (by decide) (by decide)]) (fun _ => by decide) (fun _ => by decide)
  · exact switched_agree c _ hf (by decide) (by decide) (by decide) (by decide) (by decide)
      (by rw [other _ (by decide) (by decide), other _ (by decide) (by decide)])
      (by rw [other _ (by decide) (by decide), other _ (by decide) (by decide)])
      (fun hon => absurd (by simpa using hon) h) (fun _ => by decide)
  · exact switched_agree c _ hf (by decide) (by decide) (by decide) (by decide) (by decide)
      (by rw [other Style.allowShort (by decide) (by decide), h]; rfl)
      (by rw [other _ (by decide) (by decide), other _ (by decide) (by decide)]) (fun _ => by decide) (fun _ => by decide)
  · exact switched_agree c _ hf (by decide) (by decide) (by decide) (by decide) (by decide)
      (by rw [other _ (by decide) (by decide), other _ (by decide) (by decide)])
      (by rw [other Style.allowShort (by decide) (by decide), h]; rfl)
      (fun _ => by decide) (fun hon => by rw [h'] at hon; cases hon)
  · exact switched_agree c _ hf (by decide) (by decide) (by decide) (by decide) (by decide)
      (by rw [other Style.allowDashForShort (by decide) (by decide), h]; simp)
      (by rw [other Style.allowSlashForShort (by decide) (by decide), h']; simp)
      (fun _ => by decide) (fun _ => by decide)

/-- The flags of a style that matter. -/
def shortened (s : Nat) : Nat :=
  ofBits (active s Style.allowLong) (active s Style.allowShort) (active s Style.allowDashForShort) (active s Style.allowSlashForShort) (active s Style.allowSticky) (active s Style.allowGuessing) (active s Style.longCaseInsensitive) (active s Style.shortCaseInsensitive) (active s Style.allowLongDisguise)

theorem run_shortened (c : Cmdline) (args : List Str) : c.run args = { c with style := shortened c.style }.run args := by
  obtain ⟨h1, h2, h3, h4, h5, h6, h7, h8, h9⟩ := active_ofBits (active c.style Style.allowLong) (active c.style Style.allowShort) (active c.style Style.allowDashForShort) (active c.style Style.allowSlashForShort) (active c.style Style.allowSticky) (active c.style Style.allowGuessing) (active c.style Style.longCaseInsensitive) (active c.style Style.shortCaseInsensitive) (active c.style Style.allowLongDisguise)
  refine C16_placement_ignored c _ (fun b hb => ?_) args
  simp only [List.mem_cons, List.not_mem_nil, or_false] at hb
  unfold shortened
  rcases hb with rfl | rfl | rfl | rfl | rfl | rfl | rfl | rfl | rfl <;> symm <;> assumption

theorem probed_ne (c : Cmdline) (args : List Str) (s f : Nat) (h : probed c args (shortened s) (shortened (s ^^^ f)) = true) :
    { c with style := s }.run args ≠ { c with style := s ^^^ f }.run args := by
  intro e
  unfold probed at h
  rw [run_shortened, run_shortened { c with style := s ^^^ f }] at e
  dsimp only at e
  rw [e] at h
  simp at h

theorem shortened_allowLong (s : Nat) : shortened (s ^^^ Style.allowLong) =
    ofBits (!active s Style.allowLong) (active s Style.allowShort) (active s Style.allowDashForShort) (active s Style.allowSlashForShort) (active s Style.allowSticky) (active s Style.allowGuessing) (active s Style.longCaseInsensitive) (active s Style.shortCaseInsensitive) (active s Style.allowLongDisguise) := by
  have h := fun g hg => active_xor s Style.allowLong (by decide) g hg
  unfold shortened
  rw [h Style.allowLong (by decide), h Style.allowShort (by decide), h Style.allowDashForShort (by decide), h Style.allowSlashForShort (by decide), h Style.allowSticky (by decide), h Style.allowGuessing (by decide), h Style.longCaseInsensitive (by decide), h Style.shortCaseInsensitive (by decide), h Style.allowLongDisguise (by decide)]
  congr 1 <;> first | exact Bool.xor_false _ | exact Bool.xor_true _

theorem shortened_allowShort (s : Nat) : shortened (s ^^^ Style.allowShort) =
    ofBits (active s Style.allowLong) (!active s Style.allowShort) (active s Style.allowDashForShort) (active s Style.allowSlashForShort) (active s Style.allowSticky) (active s Style.allowGuessing) (active s Style.longCaseInsensitive) (active s Style.shortCaseInsensitive) (active s Style.allowLongDisguise) := by
  have h := fun g hg => active_xor s Style.allowShort (by decide) g hg
  unfold shortened
  rw [h Style.allowLong (by decide), h Style.allowShort (by decide), h Style.allowDashForShort (by decide), h Style.allowSlashForShort (by decide), h Style.allowSticky (by decide), h Style.allowGuessing (by decide), h Style.longCaseInsensitive (by decide), h Style.shortCaseInsensitive (by decide), h Style.allowLongDisguise (by decide)]
  congr 1 <;> first | exact Bool.xor_false _ | exact Bool.xor_true _

theorem shortened_allowDashForShort (s : Nat) : shortened (s ^^^ Style.allowDashForShort) =
    ofBits (active s Style.allowLong) (active s Style.allowShort) (!active s Style.allowDashForShort) (active s Style.allowSlashForShort) (active s Style.allowSticky) (active s Style.allowGuessing) (active s Style.longCaseInsensitive) (active s Style.shortCaseInsensitive) (active s Style.allowLongDisguise) := by
  have h := fun g hg => active_xor s Style.allowDashForShort (by decide) g hg
  unfold shortened
  rw [h Style.allowLong (by decide), h Style.allowShort (by decide), h Style.allowDashForShort (by decide), h Style.allowSlashForShort (by decide), h Style.allowSticky (by decide), h Style.allowGuessing (by decide), h Style.longCaseInsensitive (by decide), h Style.shortCaseInsensitive (by decide), h Style.allowLongDisguise (by decide)]
  congr 1 <;> first | exact Bool.xor_false _ | exact Bool.xor_true _

theorem shortened_allowSlashForShort (s : Nat) : shortened (s ^^^ Style.allowSlashForShort) =
    ofBits (active s Style.allowLong) (active s Style.allowShort) (active s Style.allowDashForShort) (!active s Style.allowSlashForShort) (active s Style.allowSticky) (active s Style.allowGuessing) (active s Style.longCaseInsensitive) (active s Style.shortCaseInsensitive) (active s Style.allowLongDisguise) := by
  have h := fun g hg => active_xor s Style.allowSlashForShort (by decide) g hg
  unfold shortened
  rw [h Style.allowLong (by decide), h Style.allowShort (by decide), h Style.allowDashForShort (by decide), h Style.allowSlashForShort (by decide), h Style.allowSticky (by decide), h Style.allowGuessing (by decide), h Style.longCaseInsensitive (by decide), h Style.shortCaseInsensitive (by decide), h Style.allowLongDisguise (by decide)]
  congr 1 <;> first | exact Bool.xor_false _ | exact Bool.xor_true _

theorem shortened_allowSticky (s : Nat) : shortened (s ^^^ Style.allowSticky) =
    ofBits (active s Style.allowLong) (active s Style.allowShort) (active s Style.allowDashForShort) (active s Style.allowSlashForShort) (!active s Style.allowSticky) (active s Style.allowGuessing) (active s Style.longCaseInsensitive) (active s Style.shortCaseInsensitive) (active s Style.allowLongDisguise) := by
  have h := fun g hg => active_xor s Style.allowSticky (by decide) g hg
  unfold shortened
  rw [h Style.allowLong (by decide), h Style.allowShort (by decide), h Style.allowDashForShort (by decide), h Style.allowSlashForShort (by decide), h Style.allowSticky (by decide), h Style.allowGuessing (by decide), h Style.longCaseInsensitive (by decide), h Style.shortCaseInsensitive (by decide), h Style.allowLongDisguise (by decide)]
  congr 1 <;> first | exact Bool.xor_false _ | exact Bool.xor_true _

theorem shortened_allowGuessing (s : Nat) : shortened (s ^^^ Style.allowGuessing) =
    ofBits (active s Style.allowLong) (active s Style.allowShort) (active s Style.allowDashForShort) (active s Style.allowSlashForShort) (active s Style.allowSticky) (!active s Style.allowGuessing) (active s Style.longCaseInsensitive) (active s Style.shortCaseInsensitive) (active s Style.allowLongDisguise) := by
  have h := fun g hg => active_xor s Style.allowGuessing (by decide) g hg
  unfold shortened
  rw [h Style.allowLong (by decide), h Style.allowShort (by decide), h Style.allowDashForShort (by decide), h Style.allowSlashForShort (by decide), h Style.allowSticky (by decide), h Style.allowGuessing (by decide), h Style.longCaseInsensitive (by decide), h Style.shortCaseInsensitive (by decide), h Style.allowLongDisguise (by decide)]
  congr 1 <;> first | exact Bool.xor_false _ | exact Bool.xor_true _

theorem shortened_longCaseInsensitive (s : Nat) : shortened (s ^^^ Style.longCaseInsensitive) =
    ofBits (active s Style.allowLong) (active s Style.allowShort) (active s Style.allowDashForShort) (active s Style.allowSlashForShort) (active s Style.allowSticky) (active s Style.allowGuessing) (!active s Style.longCaseInsensitive) (active s Style.shortCaseInsensitive) (active s Style.allowLongDisguise) := by
  have h := fun g hg => active_xor s Style.longCaseInsensitive (by decide) g hg
  unfold shortened
  rw [h Style.allowLong (by decide), h Style.allowShort (by decide), h Style.allowDashForShort (by decide), h Style.allowSlashForShort (by decide), h Style.allowSticky (by decide), h Style.allowGuessing (by decide), h Style.longCaseInsensitive (by decide), h Style.shortCaseInsensitive (by decide), h Style.allowLongDisguise (by decide)]
  congr 1 <;> first | exact Bool.xor_false _ | exact Bool.xor_true _

theorem shortened_shortCaseInsensitive (s : Nat) : shortened (s ^^^ Style.shortCaseInsensitive) =
    ofBits (active s Style.allowLong) (active s Style.allowShort) (active s Style.allowDashForShort) (active s Style.allowSlashForShort) (active s Style.allowSticky) (active s Style.allowGuessing) (active s Style.longCaseInsensitive) (!active s Style.shortCaseInsensitive) (active s Style.allowLongDisguise) := by
  have h := fun g hg => active_xor s Style.shortCaseInsensitive (by decide) g hg
  unfold shortened
  rw [h Style.allowLong (by decide), h Style.allowShort (by decide), h Style.allowDashForShort (by decide), h Style.allowSlashForShort (by decide), h Style.allowSticky (by decide), h Style.allowGuessing (by decide), h Style.longCaseInsensitive (by decide), h Style.shortCaseInsensitive (by decide), h Style.allowLongDisguise (by decide)]
  congr 1 <;> first | exact Bool.xor_false _ | exact Bool.xor_true _

theorem shortened_allowLongDisguise (s : Nat) : shortened (s ^^^ Style.allowLongDisguise) =
    ofBits (active s Style.allowLong) (active s Style.allowShort) (active s Style.allowDashForShort) (active s Style.allowSlashForShort) (active s Style.allowSticky) (active s Style.allowGuessing) (active s Style.longCaseInsensitive) (active s Style.shortCaseInsensitive) (!active s Style.allowLongDisguise) := by
  have h := fun g hg => active_xor s Style.allowLongDisguise (by decide) g hg
  unfold shortened
  rw [h Style.allowLong (by decide), h Style.allowShort (by decide), h Style.allowDashForShort (by decide), h Style.allowSlashForShort (by decide), h Style.allowSticky (by decide), h Style.allowGuessing (by decide), h Style.longCaseInsensitive (by decide), h Style.shortCaseInsensitive (by decide), h Style.allowLongDisguise (by decide)]
  congr 1 <;> first | exact Bool.xor_false _ | exact Bool.xor_true _

end Cmdline

open Cmdline in
/-- Switching a flag of the style changes nothing, for any description, extra parser, positional description and command line, exactly
if the flag is idle: it is one of the four on where values are written, or it is about short options and these are not written that way. -/
theorem C110_idle_iff (s f : Nat) (hf : f ∈ flags) :
    Idle s f ↔ ∀ (c : Cmdline) (args : List Str), { c with style := s }.run args = { c with style := s ^^^ f }.run args := by
  constructor
  · intro h c args
    exact ((Cmdline.switched_idle { c with style := s } f hf h).run rfl args).symm
  · intro h
    unfold flags at hf
    simp only [List.mem_cons, List.not_mem_nil, or_false] at hf
    have key := fun c args (hp : Cmdline.probed c args (Cmdline.shortened s) (Cmdline.shortened (s ^^^ f)) = true) =>
      Cmdline.probed_ne c args s f hp (h c args)
    unfold Idle
    rcases hf with rfl | rfl | rfl | rfl | rfl | rfl | rfl | rfl | rfl | rfl | rfl | rfl | rfl
    · exact absurd (by rw [shortened_allowLong]; exact probe_allowLong ..) (key probeLong [str% "--foo"])
    · by_cases hd : active s Style.allowDashForShort = true
      · exact absurd (by rw [shortened_allowShort]; exact probe_allowShort _ _ _ _ _ _ _ _ _ hd) (key probeShort [str% "-x"])
      · by_cases he : active s Style.allowSlashForShort = true
        · exact absurd (by rw [shortened_allowShort]; exact probe_allowShortSlash _ _ _ _ _ _ _ _ _ he) (key probeShort [str% "/x"])
        · simp at hd he; simp [hd, he]
    · by_cases hb : active s Style.allowShort = true
      · exact absurd (by rw [shortened_allowDashForShort]; exact probe_allowDashForShort _ _ _ _ _ _ _ _ _ hb) (key probeShort [str% "-x"])
      · simp at hb; simp [hb]
    · by_cases hb : (active s Style.allowShort || active s Style.allowLongDisguise) = true
      · exact absurd (by rw [shortened_allowSlashForShort]; exact probe_allowSlashForShort _ _ _ _ _ _ _ _ _ hb) (key probeLong [str% "/foo"])
      · simp at hb; simp [hb]
    · simp
    · simp
    · simp
    · simp
    · by_cases hb : (active s Style.allowShort && active s Style.allowDashForShort) = true
      · exact absurd (by rw [shortened_allowSticky]; exact probe_allowSticky _ _ _ _ _ _ _ _ _ hb) (key probeShort [str% "-xy"])
      · simp at hb; simp; tauto
    · exact absurd (by rw [shortened_allowGuessing]; exact probe_allowGuessing ..) (key probeGuess [str% "z"])
    · exact absurd (by rw [shortened_longCaseInsensitive]; exact probe_longCaseInsensitive ..) (key (probeCase (str% "foo")) [str% "z"])
    · exact absurd (by rw [shortened_shortCaseInsensitive]; exact probe_shortCaseInsensitive ..) (key (probeCase (str% "f")) [str% "z"])
    · exact absurd (by rw [shortened_allowLongDisguise]; exact probe_allowLongDisguise ..) (key probeLong [str% "-foo"])

/-- Grouping is idle without `-` for short options, guessing never is. -/
example : Idle (Style.allowLong ||| Style.allowShort ||| Style.allowSlashForShort) Style.allowSticky ∧
    ¬ Idle Style.allowShort Style.allowGuessing := by
  constructor
  · exact Or.inr (Or.inr (Or.inr (Or.inr (Or.inl ⟨rfl, by decide⟩))))
  · unfold Idle; decide

end PO
