import Verif.Lemmas.HelpStream
/-
C141: the help on a stream.
-/
namespace PO
open Spec HelpStream

theorem helpOps_cases (t : Tree) (o : OptionsDesc) (h : t.build = .ok o) (width : Nat) :
    (∃ w, (width ≠ 0 → w = width) ∧ (width = 0 → columnWidth o = .ok w) ∧ helpOps o width = piecesOps w t.layout ∧ o.print width = piecesText w t.layout) ∨
    ∃ f, width = 0 ∧ columnWidth o = .error f ∧ helpOps o width = (captionOps o.caption, some f) ∧ o.print width = .error f := by
  unfold helpOps
  by_cases hw : width = 0
  · subst hw
    cases hc : columnWidth o with
    | error f =>
      refine .inr ⟨f, rfl, rfl, by rw [if_pos rfl], ?_⟩
      rw [OptionsDesc.print, if_pos rfl, hc]
    | ok w =>
      refine .inl ⟨w, fun h => absurd rfl h, fun _ => rfl, ?_, (C52_layout t o h 0).2 w hc⟩
      rw [if_pos rfl]; exact (printOps_layout w t o h).1
  · exact .inl ⟨width, fun _ => rfl, fun h => absurd h hw, by rw [if_neg hw]; exact (printOps_layout width t o h).1, (C52_layout t o h width).1 hw⟩

/-- Printing to a stream ends as printing does: it throws the same, whatever the stream. -/
theorem C141_throws (t : Tree) (o : OptionsDesc) (h : t.build = .ok o) (width : Nat) (s : Ostream) (f : Fail) :
    (HelpStream.print s o width).2 = some f ↔ o.print width = .error f := by
  show (helpOps o width).2 = some f ↔ _
  rcases helpOps_cases t o h width with ⟨w, -, -, e1, e2⟩ | ⟨g, -, -, e1, e2⟩
  · have := agrees_pieces w t.layout
    rw [e1, e2]
    generalize piecesOps w t.layout = out at this
    obtain ⟨ops, r⟩ := out
    cases r with
    | none => rw [agrees_none] at this; rw [this]; simp
    | some g => rw [agrees_some] at this; rw [this]; simp
  · rw [e1, e2]; simp

/-- **C141.** What is on a good stream after the help was printed to it: the text of the help, of which the part that is written first (the caption, the left column of the
first option, or an empty line) is put in the field the stream has; all of it, or as much as there is room for. The field width is used up. -/
theorem C141_written (t : Tree) (o : OptionsDesc) (h : t.build = .ok o) (width : Nat) (text : Str) (hp : o.print width = .ok text) (s : Ostream)
    (hg : s.good = true) :
    (t.layout = [] → text = [] ∧ HelpStream.print s o width = (s, none)) ∧
    (∀ p ps, t.layout = p :: ps → ∃ first rest field s', HelpStream.print s o width = (s', none) ∧ Opens p first ∧ text = first ++ rest ∧
      Field s.width s.fill s.left first field ∧ s'.text = s.text ++ taken s.room (field ++ rest) ∧ (s'.good = true ↔ Suffices s.room (field ++ rest)) ∧
      s'.width = 0 ∧ s'.fill = s.fill ∧ s'.left = s.left) := by
  rcases helpOps_cases t o h width with ⟨w, -, -, e1, e2⟩ | ⟨g, -, -, -, e2⟩
  · rw [e2] at hp
    constructor
    · intro hl
      rw [hl] at hp e1
      cases hp
      refine ⟨rfl, ?_⟩
      show ((helpOps o width).1.foldl perform s, (helpOps o width).2) = _
      rw [e1]; rfl
    · intro p ps hl
      rw [hl] at hp e1
      have ha := agrees_pieces w (p :: ps)
      cases ho : piecesOps w (p :: ps) with
      | mk ops r =>
        rw [ho] at ha e1
        cases r with
        | some f => rw [agrees_some, hp] at ha; cases ha
        | none =>
          rw [agrees_none, hp] at ha
          obtain ⟨first, more, h1, rfl⟩ := piecesOps_begin ho
          rw [textOf_cons] at ha
          injection ha with ha
          obtain ⟨f1, f2, f3, f4, f5⟩ := foldl_first s hg first more
          refine ⟨first, textOf more, padded s first, _, ?_, h1, ha, padded_field s first, f1, f2, f3, f4, f5⟩
          show ((helpOps o width).1.foldl perform s, (helpOps o width).2) = _
          rw [e1]
  · rw [e2] at hp; cases hp

/-- A stream that is not good is left alone. -/
theorem C141_not_good (o : OptionsDesc) (width : Nat) (s : Ostream) (hg : s.good = false) : (HelpStream.print s o width).1 = s := foldl_bad _ s hg

/-- The claim: what a good stream gets is the text of the help. -/
def SameOnAll : Prop :=
  ∀ (t : Tree) (o : OptionsDesc) (text : Str) (s : Ostream), t.build = .ok o → o.print = .ok text → s.good = true → s.room = none →
    (HelpStream.print s o).1.text = s.text ++ text

/-- It is if the field the stream has is not larger than what is written first; and only then. -/
theorem C141_same_iff (t : Tree) (o : OptionsDesc) (h : t.build = .ok o) (width : Nat) (text : Str) (hp : o.print width = .ok text) (s : Ostream)
    (hg : s.good = true) (hr : s.room = none) :
    (HelpStream.print s o width).1.text = s.text ++ text ↔ ∀ p ps, t.layout = p :: ps → ∃ first, Opens p first ∧ first <+: text ∧ s.width ≤ first.length := by
  obtain ⟨h1, h2⟩ := C141_written t o h width text hp s hg
  cases hl : t.layout with
  | nil =>
    obtain ⟨rfl, e⟩ := h1 hl
    rw [e]
    simp
  | cons p ps =>
    obtain ⟨first, rest, field, s', e, ho, rfl, hf, ht, -⟩ := h2 p ps hl
    rw [e]
    dsimp only
    rw [ht, hr]
    show s.text ++ (field ++ rest) = s.text ++ (first ++ rest) ↔ _
    rw [List.append_cancel_left_eq, List.append_cancel_right_eq]
    constructor
    · intro hx p' ps' hq
      cases hq
      refine ⟨first, ho, List.prefix_append _ _, ?_⟩
      have hlen := congrArg List.length hx
      cases hf with
      | long h => exact h
      | onLeft h => simp at hlen; omega
      | onRight h => simp at hlen; omega
    · intro hx
      obtain ⟨first', o', hpre, hw⟩ := hx p ps rfl
      have same : first' = first := by
        cases ho with
        | caption => cases o'; rfl
        | blank => cases o'; rfl
        | entry hl =>
          cases o' with
          | entry hl' =>
            have a := (left_exact _ _).2 hl
            have b := (left_exact _ _).2 hl'
            rw [a] at b; cases b; rfl
      subst same
      cases hf with
      | long => rfl
      | onLeft h => omega
      | onRight h => omega

/-- It is in particular if the stream has no field. -/
theorem C141_same_partial (t : Tree) (o : OptionsDesc) (h : t.build = .ok o) (width : Nat) (text : Str) (hp : o.print width = .ok text) (s : Ostream)
    (hg : s.good = true) (hr : s.room = none) (hw : s.width = 0) : HelpStream.print s o width = ({ s with text := s.text ++ text }, none) := by
  rcases helpOps_cases t o h width with ⟨w, -, -, e1, e2⟩ | ⟨g, -, -, -, e2⟩
  · rw [e2] at hp
    have ha := agrees_pieces w t.layout
    show ((helpOps o width).1.foldl perform s, (helpOps o width).2) = _
    rw [e1]
    generalize piecesOps w t.layout = out at ha
    obtain ⟨ops, r⟩ := out
    cases r with
    | some f => rw [agrees_some, hp] at ha; cases ha
    | none =>
      rw [agrees_none, hp] at ha
      cases ha
      dsimp only
      rw [foldl_unlimited ops s hg hw hr]
  · rw [e2] at hp; cases hp

/-- A stream that has no field, and room for so many characters, gets so many characters of the help; it is good afterwards exactly if this is all of it. -/
theorem C141_room (t : Tree) (o : OptionsDesc) (h : t.build = .ok o) (width : Nat) (text : Str) (hp : o.print width = .ok text) (s : Ostream) (k : Nat)
    (hg : s.good = true) (hr : s.room = some k) (hw : s.width = 0) :
    (HelpStream.print s o width).2 = none ∧ (HelpStream.print s o width).1.text = s.text ++ text.take k ∧
      ((HelpStream.print s o width).1.good = true ↔ text.length ≤ k) := by
  obtain ⟨h1, h2⟩ := C141_written t o h width text hp s hg
  cases hl : t.layout with
  | nil =>
    obtain ⟨rfl, e⟩ := h1 hl
    rw [e]
    exact ⟨rfl, by simp, by simp [hg]⟩
  | cons p ps =>
    obtain ⟨first, rest, field, s', e, ho, rfl, hf, ht, hgd, -⟩ := h2 p ps hl
    have : field = first := by
      cases hf with
      | long => rfl
      | onLeft h => omega
      | onRight h => omega
    subst this
    rw [e]
    refine ⟨rfl, by dsimp only; rw [ht, hr]; rfl, ?_⟩
    dsimp only
    rw [hgd, hr]
    constructor
    · intro hx; exact hx k rfl
    · rintro hx j hj; cases hj; exact hx

/-! ### When printing throws -/

theorem piecesOps_fails {w : Nat} {ps : List Piece} {ops : List Op} {f : Fail} (h : piecesOps w ps = (ops, some f)) :
    ∃ before p after ob op, ps = before ++ p :: after ∧ piecesOps w before = (ob, none) ∧ pieceOps w p = (op, some f) ∧ ops = ob ++ op := by
  induction ps generalizing ops with
  | nil => cases h
  | cons p ps ih =>
    rw [piecesOps] at h
    cases hp : pieceOps w p with
    | mk x r =>
      rw [hp] at h
      cases r with
      | some g => cases h; exact ⟨[], p, ps, [], ops, rfl, rfl, hp, rfl⟩
      | none =>
        cases hq : piecesOps w ps with
        | mk y r' =>
          rw [hq] at h
          cases h
          obtain ⟨before, p', after, ob, op, e1, e2, e3, e4⟩ := ih hq
          refine ⟨p :: before, p', after, x ++ ob, op, by rw [e1]; rfl, by rw [piecesOps, hp, e2]; rfl, e3, by rw [e4, List.append_assoc]⟩

theorem leftColumn_ub {d : OptionDesc} {f : Fail} (h : d.leftColumn = .error f) : f = .ub .noLongName := by
  unfold OptionDesc.leftColumn OptionDesc.formatName at h
  split at h
  · rename_i heq
    split at heq
    · split at heq <;> cases heq
    · split at heq <;> cases heq
      cases h; rfl
  · cases h

theorem maxLeft_ub {ds : List OptionDesc} {b : Nat} {f : Fail} (h : maxLeft ds b = .error f) : f = .ub .noLongName := by
  induction ds generalizing b with
  | nil => cases h
  | cons d ds ih =>
    rw [maxLeft] at h
    split at h
    · rename_i hl; cases h; exact leftColumn_ub hl
    · exact ih h

mutual
theorem columnWidth_ub (o : OptionsDesc) (f : Fail) (h : columnWidth o = .error f) : ∃ u, f = .ub u := by
  obtain ⟨c, ll, md, opts, bel, gs⟩ := o
  rw [columnWidth] at h
  split at h
  · rename_i hm; cases h; exact ⟨_, maxLeft_ub hm⟩
  · split at h
    · rename_i hg; cases h; exact groupsWidth_ub gs _ _ hg
    · split at h
      · cases h
      · split at h
        · cases h
        · cases h; exact ⟨_, rfl⟩

theorem groupsWidth_ub (gs : List OptionsDesc) (b : Nat) (f : Fail) (h : groupsWidth gs b = .error f) : ∃ u, f = .ub u := by
  cases gs with
  | nil => cases h
  | cons g gs =>
    rw [groupsWidth] at h
    split at h
    · rename_i hc; cases h; exact columnWidth_ub g _ hc
    · exact groupsWidth_ub gs _ _ h
end

/-- If printing throws because of a description, the help is there up to the left column of the option with that description: what comes before it
completely. -/
theorem C141_thrown (t : Tree) (o : OptionsDesc) (h : t.build = .ok o) (width : Nat) (s s' : Ostream) (f : Fail) (hu : ∀ u, f ≠ .ub u)
    (hg : s.good = true) (hr : s.room = none) (hw : s.width = 0) (hp : HelpStream.print s o width = (s', some f)) :
    ∃ w before d ll after text left more, (width ≠ 0 → w = width) ∧ (width = 0 → Column t w) ∧ t.layout = before ++ .entry d ll :: after ∧
      Text w before text ∧ Left d left ∧ formatOne d w ll = .error f ∧ s'.text = s.text ++ (text ++ (left ++ more)) := by
  have hp' : ((helpOps o width).1.foldl perform s, (helpOps o width).2) = (s', some f) := hp
  rcases helpOps_cases t o h width with ⟨w, w1, w2, e1, -⟩ | ⟨g, -, hc, e1, -⟩
  · rw [e1] at hp'
    cases ho : piecesOps w t.layout with
    | mk ops r =>
      rw [ho] at hp'
      injection hp' with hs hf
      dsimp only at hs hf
      subst hf
      obtain ⟨before, p, after, ob, op, h1, h2, h3, h4⟩ := piecesOps_fails ho
      have hb := agrees_pieces w before
      rw [h2, agrees_none, text_exact] at hb
      rw [foldl_unlimited ops s hg hw hr] at hs
      subst hs h4
      cases p with
      | caption c => cases h3
      | blank => cases h3
      | entry d ll =>
        have he := agrees_one d w ll
        rw [pieceOps] at h3
        rcases oneOps_begin d w ll with ⟨left, more, r, g1, g2⟩ | ⟨g, g1, g2⟩
        · rw [g2] at h3 he
          cases r with
          | none => cases h3
          | some g =>
            cases h3
            rw [agrees_some] at he
            refine ⟨w, before, d, ll, after, textOf ob, left, textOf more, w1, fun h0 => (t.column_exact o h w).1 (w2 h0), h1, hb, g1, he, ?_⟩
            rw [textOf_append, textOf_cons]; rfl
        · rw [g2] at h3
          cases h3
          exact absurd (leftColumn_ub g1) (hu _)
  · obtain ⟨u, rfl⟩ := columnWidth_ub o g hc
    rw [e1] at hp'
    cases hp'
    exact absurd rfl (hu u)

/-! ### Witnesses -/

namespace Ex.Help
open Test

def tree : Tree := .mk (L "Options") 80 40 (.opt (od "a" unt "first") .nil)
def group : OptionsDesc := { caption := L "Options", lineLength := 80, minDescLen := 40, options := [od "a" unt "first"], belong := [false], groups := [] }
theorem built : tree.build = .ok group := rfl

/-- `std::cout << std::setw(10) << desc` -/
def wide : Ostream := { width := 10 }

/-- Two tabs in the second description. -/
def tabs : Tree := .mk [] 80 40 (.opt (od "a" unt "first") (.opt (od "b" unt "x\ty\tz") .nil))

end Ex.Help

open Ex.Help

/-- **The code disagrees**: the caption is put in the field of the stream. -/
theorem C141_negation : ¬ SameOnAll := by
  intro h
  obtain ⟨text, ht⟩ : ∃ text, group.print = .ok text := ⟨_, rfl⟩
  have := h tree group text wide built ht rfl rfl
  rw [C141_same_iff tree group built 0 text ht wide rfl rfl] at this
  obtain ⟨first, ho, -, hw⟩ := this _ _ rfl
  cases ho
  exact absurd hw (by decide)

/-- What is seen. -/
example : ((HelpStream.print wide group).1.text, (HelpStream.print {} group).1.text) =
    (Test.L "   Options:\n  --a                   first\n", Test.L "Options:\n  --a                   first\n") := by decide

/-- Of a file system with room for 12 characters, the stream gets these, and is bad. -/
example : (HelpStream.print { room := some 12 } group) = ({ room := some 0, good := false, text := Test.L "Options:\n  -" }, none) := by decide

/-- Printing throws in the middle of the second option. -/
example : (match tabs.build with
    | .ok o => ((HelpStream.print {} o).1.text, (HelpStream.print {} o).2.isSome)
    | .error _ => ([], false)) = (Test.L "  --a                   first\n  --b                   ", true) := by decide

end PO
