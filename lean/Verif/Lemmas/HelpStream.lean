import Verif.Spec.HelpStream
import Verif.Props.HelpText
/-
The help on a stream is the text of the help.
-/
namespace PO.HelpStream
open Spec

def Op.text : Op → Str
  | .put c => [c]
  | .ins s => s

def textOf (ops : List Op) : Str := ops.flatMap Op.text

theorem textOf_append (a b : List Op) : textOf (a ++ b) = textOf a ++ textOf b := by unfold textOf; rw [List.flatMap_append]
theorem textOf_cons (a : Op) (b : List Op) : textOf (a :: b) = a.text ++ textOf b := by unfold textOf; rw [List.flatMap_cons]
theorem textOf_nil : textOf [] = [] := rfl

theorem textOf_chars (s : Str) : textOf (chars s) = s := by
  unfold chars
  induction s with
  | nil => rfl
  | cons c s ih => rw [List.map_cons, textOf_cons, ih]; rfl

theorem textOf_puts (n : Nat) : textOf (puts n) = spaces n := by
  unfold puts spaces
  induction n with
  | zero => rfl
  | succ n ih => rw [List.replicate_succ, List.replicate_succ, textOf_cons, ih]; rfl

theorem textOf_newLine (n : Nat) : textOf (newLine n) = '\n' :: spaces n := by
  unfold newLine; rw [textOf_cons, textOf_puts]; rfl

/-- The statements write the text, or end with the same exception. -/
def Agrees (out : Out) (r : Except Fail Str) : Prop :=
  match out.2 with
  | some f => r = .error f
  | none => r = .ok (textOf out.1)

theorem agrees_none {ops : List Op} {r : Except Fail Str} : Agrees (ops, none) r ↔ r = .ok (textOf ops) := Iff.rfl
theorem agrees_some {ops : List Op} {f : Fail} {r : Except Fail Str} : Agrees (ops, some f) r ↔ r = .error f := Iff.rfl

/-- One text after the other. -/
def cat (a b : Except Fail Str) : Except Fail Str :=
  match a with
  | .error f => .error f
  | .ok x =>
    match b with
    | .error f => .error f
    | .ok y => .ok (x ++ y)

theorem agrees_then {a b : Out} {r s : Except Fail Str} (ha : Agrees a r) (hb : Agrees b s) : Agrees (andThen a b) (cat r s) := by
  obtain ⟨x, f⟩ := a
  obtain ⟨y, g⟩ := b
  cases f with
  | some f => rw [agrees_some] at ha; subst ha; exact rfl
  | none =>
    rw [agrees_none] at ha; subst ha
    cases g with
    | some g => rw [agrees_some] at hb; subst hb; exact rfl
    | none =>
      rw [agrees_none] at hb; subst hb
      show Agrees (x ++ y, none) (.ok (textOf x ++ textOf y))
      rw [agrees_none, textOf_append]

theorem wrapRest_nil {fuel : Nat} {s : Str} {len : Nat} {ls : List Str} (h : wrapRest fuel s len = .ok ls) : ls = [] ↔ s = [] := by
  cases s with
  | nil =>
    have : wrapRest fuel [] len = .ok [] := by cases fuel <;> rfl
    rw [this] at h; cases h; simp
  | cons c s =>
    cases fuel with
    | zero => cases h
    | succ fuel =>
      rw [wrapRest] at h
      · by_cases hl : len = 0
        · rw [if_pos hl] at h; cases h
        · rw [if_neg hl] at h
          dsimp only at h
          split at h
          · cases h
          · cases h; simp
      · intro e; cases e

theorem joinLines_cons (pad : Nat) (l : Str) (ls : List Str) : joinLines pad (l :: ls) = l ++ (if ls = [] then [] else '\n' :: spaces pad) ++ joinLines pad ls := by
  cases ls with
  | nil => simp [joinLines]
  | cons m ls => rw [joinLines]; simp; intro h; cases h

theorem agrees_rest (pad fuel : Nat) (s : Str) (len : Nat) : Agrees (restOps pad fuel s len) ((wrapRest fuel s len).map (joinLines pad)) := by
  induction fuel generalizing s with
  | zero => cases s <;> exact rfl
  | succ fuel ih =>
    cases s with
    | nil => exact rfl
    | cons c s =>
      rw [restOps, wrapRest]
      · by_cases hl : len = 0
        · rw [if_pos hl, if_pos hl]; exact rfl
        · rw [if_neg hl, if_neg hl]
          dsimp only
          generalize dropLead (c :: s) = s'
          have ih := ih (s'.drop (lineEnd s' len))
          refine Eq.mp (congrArg (Agrees _) ?_) (agrees_then (r := .ok _) (agrees_none.2 rfl) ih)
          cases hw : wrapRest fuel (s'.drop (lineEnd s' len)) len with
          | error f => rfl
          | ok ls =>
            show Except.ok _ = Except.ok (joinLines pad (s'.take (lineEnd s' len) :: ls))
            rw [joinLines_cons, textOf_append, textOf_chars]
            by_cases he : s'.drop (lineEnd s' len) = []
            · rw [if_pos he, if_pos ((wrapRest_nil hw).2 he)]; rfl
            · rw [if_neg he, if_neg (fun e => he ((wrapRest_nil hw).1 e)), textOf_newLine]
      all_goals (intro e; cases e)

theorem agrees_paragraph (par : Str) (indent ll : Nat) : Agrees (paragraphOps par indent ll) (formatParagraph par indent ll) := by
  unfold paragraphOps formatParagraph paragraphLines
  by_cases hi : indent < ll
  · rw [if_pos hi, if_pos hi]
    dsimp only
    cases parIndent par (ll - indent) with
    | error f => exact rfl
    | ok q =>
      obtain ⟨pi, p⟩ := q
      dsimp only
      by_cases hp : p.length < ll - indent
      · rw [if_pos hp, if_pos hp]
        show Except.ok (joinLines (indent + pi) [p]) = Except.ok (textOf [.ins p])
        simp [joinLines, textOf_cons, textOf_nil, Op.text]
      · rw [if_neg hp, if_neg hp]
        generalize hn : lineEnd p (ll - indent) = n
        refine Eq.mp (congrArg (Agrees _) ?_) (agrees_then (r := .ok _) (agrees_none.2 rfl) (agrees_rest (indent + pi) p.length (p.drop n) (ll - indent - pi)))
        cases hw : wrapRest p.length (p.drop n) (ll - indent - pi) with
        | error f => rfl
        | ok ls =>
          show Except.ok _ = Except.ok (joinLines (indent + pi) (p.take n :: ls))
          rw [joinLines_cons, textOf_append, textOf_chars]
          by_cases he : p.drop n = []
          · rw [if_pos he, if_pos ((wrapRest_nil hw).2 he)]; rfl
          · rw [if_neg he, if_neg (fun e => he ((wrapRest_nil hw).1 e)), textOf_newLine]
  · rw [if_neg hi, if_neg hi]; exact rfl

theorem agrees_pars (indent ll : Nat) (ps : List Str) : Agrees (parsOps indent ll ps) ((formatPars indent ll ps).map (joinLines indent)) := by
  induction ps with
  | nil => exact rfl
  | cons p ps ih =>
    have hp := agrees_paragraph p indent ll
    cases ps with
    | nil =>
      rw [parsOps, formatPars]
      refine Eq.mp (congrArg (Agrees _) ?_) hp
      cases formatParagraph p indent ll with
      | error f => rfl
      | ok t => rfl
    | cons q ps =>
      rw [parsOps, formatPars]
      refine Eq.mp (congrArg (Agrees _) ?_) (agrees_then hp (agrees_then (r := .ok _) (agrees_none.2 rfl) ih))
      cases formatParagraph p indent ll with
      | error f => rfl
      | ok t =>
        cases hw : formatPars indent ll (q :: ps) with
        | error f => rfl
        | ok ts =>
          have hne : ts ≠ [] := by
            rintro rfl
            rw [formatPars] at hw
            split at hw
            · cases hw
            · split at hw <;> cases hw
          show Except.ok _ = Except.ok (joinLines indent (t :: ts))
          rw [joinLines_cons, if_neg hne, textOf_newLine, List.append_assoc]

theorem agrees_description (s : Str) (col ll : Nat) : Agrees (descriptionOps s col ll) (formatDescription s col ll) := by
  unfold descriptionOps formatDescription
  by_cases h1 : ll > 1
  · rw [if_pos h1, if_pos h1]
    by_cases h2 : ll - 1 > col
    · rw [if_pos h2, if_pos h2]
      refine Eq.mp (congrArg (Agrees _) ?_) (agrees_pars col (ll - 1) (splitNl s))
      cases formatPars col (ll - 1) (splitNl s) <;> rfl
    · rw [if_neg h2, if_neg h2]; exact rfl
  · rw [if_neg h1, if_neg h1]; exact rfl

theorem agrees_one (d : OptionDesc) (col ll : Nat) : Agrees (oneOps d col ll) (formatOne d col ll) := by
  unfold oneOps formatOne
  cases d.leftColumn with
  | error f => exact rfl
  | ok ss =>
    dsimp only
    by_cases hd : d.description = []
    · rw [if_pos hd, if_pos hd]
      show Except.ok ss = Except.ok (textOf [.ins ss])
      simp [textOf_cons, textOf_nil, Op.text]
    · rw [if_neg hd, if_neg hd]
      refine Eq.mp (congrArg (Agrees _) ?_) (agrees_then (r := .ok _) (agrees_none.2 rfl) (agrees_description d.description col ll))
      cases formatDescription d.description col ll with
      | error f => rfl
      | ok t =>
        show Except.ok _ = Except.ok _
        rw [textOf_cons]
        by_cases hc : ss.length ≥ col
        · rw [if_pos hc, if_pos hc, textOf_cons, textOf_puts]; rfl
        · rw [if_neg hc, if_neg hc, textOf_puts]; rfl

/-! ### Pieces -/

def pieceOps (w : Nat) : Piece → Out
  | .caption c => ([.ins c, .ins (str% ":\n")], none)
  | .blank => ([.ins ['\n']], none)
  | .entry d ll => andThen (oneOps d w ll) ([.ins ['\n']], none)

def piecesOps (w : Nat) : List Piece → Out
  | [] => ([], none)
  | p :: ps => andThen (pieceOps w p) (piecesOps w ps)

theorem andThen_assoc (a b c : Out) : andThen (andThen a b) c = andThen a (andThen b c) := by
  obtain ⟨x, f⟩ := a
  obtain ⟨y, g⟩ := b
  obtain ⟨z, h⟩ := c
  cases f with
  | some f => rfl
  | none =>
    cases g with
    | some g => rfl
    | none => show ((x ++ y) ++ z, h) = (x ++ (y ++ z), h); rw [List.append_assoc]

theorem andThen_nil (a : Out) : andThen ([], none) a = a := rfl

theorem piecesOps_append (w : Nat) (ps qs : List Piece) : piecesOps w (ps ++ qs) = andThen (piecesOps w ps) (piecesOps w qs) := by
  induction ps with
  | nil => rfl
  | cons p ps ih => rw [List.cons_append, piecesOps, piecesOps, ih, andThen_assoc]

theorem optionsOps_pieces (w ll : Nat) (ds : List OptionDesc) : optionsOps w ll ds = piecesOps w (ds.map fun d => .entry d ll) := by
  induction ds with
  | nil => rfl
  | cons d ds ih => rw [optionsOps, List.map_cons, piecesOps, pieceOps, ih, andThen_assoc]

structure AddedOps (w : Nat) (items : Items) (o o' : OptionsDesc) : Prop where
  caption : o'.caption = o.caption
  lineLength : o'.lineLength = o.lineLength
  options : o'.options = o.options ++ items.declared
  belong : o'.belong.length = o'.options.length
  own : ownOptions o'.options o'.belong = ownOptions o.options o.belong ++ items.direct
  groups : ∃ gs, o'.groups = o.groups ++ gs ∧ groupsOps w gs = piecesOps w items.groupLayout

mutual
theorem printOps_layout (w : Nat) (t : Tree) (o : OptionsDesc) (h : t.build = .ok o) :
    printOps w o = piecesOps w t.layout ∧ o.options = t.declared ∧ captionOps o.caption = (piecesOps w (match t with | .mk c _ _ _ => if c = [] then [] else [.caption c])).1 := by
  cases t with
  | mk caption ll md items =>
    rw [Tree.build] at h
    unfold OptionsDesc.make at h
    split at h
    · cases h
    · rename_i o0 he
      have h0 : o0 = { caption, lineLength := ll, minDescLen := md, options := [], belong := [], groups := [] } := by
        by_cases hm : md < (if ll = 0 then uintMax else ll - 1)
        · rw [if_pos hm] at he; cases he; rfl
        · rw [if_neg hm] at he; cases he
      subst h0
      have ha := addTo_layout w items _ o rfl h
      obtain ⟨c1, c2, c3, c4, c5, gs, c6, c7⟩ := ha
      obtain ⟨oc, oll, omd, oopts, obel, ogrp⟩ := o
      simp only [List.nil_append] at c1 c2 c3 c5 c6
      subst c1 c2 c3 c6
      have hcap : (captionOps oc, none) = piecesOps w (if oc = [] then [] else [.caption oc]) := by
        unfold captionOps
        by_cases hc : oc = []
        · rw [if_pos hc, if_pos hc]; rfl
        · rw [if_neg hc, if_neg hc]; rfl
      refine ⟨?_, rfl, by dsimp only; rw [← hcap]⟩
      rw [printOps, Tree.layout, c5, piecesOps_append, piecesOps_append]
      rw [show ownOptions [] [] = [] from rfl, List.nil_append, optionsOps_pieces, c7, hcap, andThen_assoc]

theorem addTo_layout (w : Nat) (items : Items) (o o' : OptionsDesc) (hb : o.belong.length = o.options.length)
    (h : items.addTo o = .ok o') : AddedOps w items o o' := by
  cases items with
  | nil =>
    rw [Items.addTo] at h
    cases h
    exact ⟨rfl, rfl, by simp [Items.declared], hb, by simp [Items.direct], [], by simp, by simp [groupsOps, Items.groupLayout, piecesOps]⟩
  | opt d rest =>
    rw [Items.addTo] at h
    have ha := addTo_layout w rest _ o' (by simp [OptionsDesc.addOption, hb]) h
    obtain ⟨c1, c2, c3, c4, c5, gs, c6, c7⟩ := ha
    refine ⟨c1, c2, by rw [c3]; simp [OptionsDesc.addOption, Items.declared], c4, ?_, gs, c6, by rw [Items.groupLayout]; exact c7⟩
    rw [c5]
    simp only [OptionsDesc.addOption]
    rw [ownOptions_append _ _ _ _ hb.symm]
    simp [ownOptions, Items.direct]
  | group t rest =>
    rw [Items.addTo] at h
    cases ht : t.build with
    | error f => rw [ht] at h; cases h
    | ok g =>
      rw [ht] at h
      simp only at h
      obtain ⟨p1, p2, -⟩ := printOps_layout w t g ht
      have ha := addTo_layout w rest _ o' (by simp [OptionsDesc.addGroup, hb]) h
      obtain ⟨c1, c2, c3, c4, c5, gs, c6, c7⟩ := ha
      refine ⟨c1, c2, by rw [c3]; simp [OptionsDesc.addGroup, Items.declared, p2], c4, ?_, g :: gs, by rw [c6]; simp [OptionsDesc.addGroup], ?_⟩
      · rw [c5]
        simp only [OptionsDesc.addGroup]
        rw [ownOptions_append _ _ _ _ hb.symm, ownOptions_true]
        simp [Items.direct]
      · rw [Items.groupLayout, groupsOps, c7, p1, List.cons_append, piecesOps, piecesOps_append]; rfl
end

theorem agrees_piece (w : Nat) (p : Piece) : Agrees (pieceOps w p) (p.text w) := by
  cases p with
  | caption c =>
    show Except.ok (c ++ [':', '\n']) = Except.ok (textOf [.ins c, .ins (str% ":\n")])
    simp [textOf_cons, textOf_nil, Op.text]
  | blank => exact rfl
  | entry d ll =>
    rw [pieceOps, Piece.text]
    refine Eq.mp (congrArg (Agrees _) ?_) (agrees_then (agrees_one d w ll) (b := ([.ins ['\n']], none)) (s := .ok ['\n']) (agrees_none.2 rfl))
    cases formatOne d w ll <;> rfl

theorem agrees_pieces (w : Nat) (ps : List Piece) : Agrees (piecesOps w ps) (piecesText w ps) := by
  induction ps with
  | nil => exact rfl
  | cons p ps ih =>
    rw [piecesOps, piecesText]
    refine Eq.mp (congrArg (Agrees _) ?_) (agrees_then (agrees_piece w p) ih)
    rfl

/-- The statements of an option begin with its left column. -/
theorem oneOps_begin (d : OptionDesc) (w ll : Nat) :
    (∃ left more r, Left d left ∧ oneOps d w ll = (.ins left :: more, r)) ∨ ∃ f, d.leftColumn = .error f ∧ oneOps d w ll = ([], some f) := by
  unfold oneOps
  cases hl : d.leftColumn with
  | error f => exact .inr ⟨f, rfl, rfl⟩
  | ok ss =>
    refine .inl ⟨ss, ?_⟩
    dsimp only
    by_cases hd : d.description = []
    · rw [if_pos hd]; exact ⟨[], none, (left_exact d ss).1 hl, rfl⟩
    · rw [if_neg hd]
      exact ⟨_, _, (left_exact d ss).1 hl, rfl⟩

theorem piecesOps_begin {w : Nat} {p : Piece} {ps : List Piece} {ops : List Op} (h : piecesOps w (p :: ps) = (ops, none)) :
    ∃ first more, Opens p first ∧ ops = .ins first :: more := by
  rw [piecesOps] at h
  cases p with
  | caption c => cases hp : piecesOps w ps with
    | mk x f => rw [hp] at h; cases h; exact ⟨c, _, .caption c, rfl⟩
  | blank => cases hp : piecesOps w ps with
    | mk x f => rw [hp] at h; cases h; exact ⟨_, _, .blank, rfl⟩
  | entry d ll =>
    rw [pieceOps] at h
    rcases oneOps_begin d w ll with ⟨left, more, r, h1, h2⟩ | ⟨f, h1, h2⟩
    · rw [h2] at h
      cases r with
      | some f => cases h
      | none =>
        have h := congrArg Prod.fst h
        exact ⟨left, _, .entry h1, h.symm⟩
    · rw [h2] at h; cases h

/-! ### The stream -/

theorem foldl_bad (ops : List Op) (s : Ostream) (h : s.good = false) : ops.foldl perform s = s := by
  induction ops with
  | nil => rfl
  | cons op ops ih =>
    rw [List.foldl_cons]
    have : perform s op = s := by cases op <;> simp [perform, h]
    rw [this, ih]

theorem perform_plain (s : Ostream) (hg : s.good = true) (hw : s.width = 0) (op : Op) : perform s op = write s op.text := by
  cases op with
  | put c => dsimp only [perform]; rw [if_pos hg]; rfl
  | ins x =>
    dsimp only [perform]
    rw [if_pos hg]
    have : padded s x = x := by unfold padded; rw [hw, Nat.zero_sub]; simp
    rw [this]
    show { write s x with width := 0 } = write s x
    have hw' : (write s x).width = 0 := by unfold write; split <;> exact hw
    rw [← hw']

theorem write_none (s : Ostream) (h : s.room = none) (x : Str) : write s x = { s with text := s.text ++ x } := by unfold write; rw [h]
theorem write_some (s : Ostream) {k : Nat} (h : s.room = some k) (x : Str) :
    write s x = { s with text := s.text ++ x.take k, room := some (k - x.length), good := decide (x.length ≤ k) } := by unfold write; rw [h]

theorem foldl_unlimited (ops : List Op) (s : Ostream) (hg : s.good = true) (hw : s.width = 0) (hr : s.room = none) :
    ops.foldl perform s = { s with text := s.text ++ textOf ops } := by
  induction ops generalizing s with
  | nil => rw [textOf_nil, List.append_nil]; rfl
  | cons op ops ih =>
    rw [List.foldl_cons, perform_plain s hg hw, write_none s hr, ih { s with text := s.text ++ op.text } hg hw hr, textOf_cons]
    dsimp only
    rw [List.append_assoc]

/-- What the stream is afterwards. -/
structure Wrote (s s' : Ostream) (x : Str) : Prop where
  text : s'.text = s.text ++ taken s.room x
  good : s'.good = true ↔ Suffices s.room x
  width : s'.width = 0
  fill : s'.fill = s.fill
  left : s'.left = s.left

theorem foldl_limited (ops : List Op) (s : Ostream) (hg : s.good = true) (hw : s.width = 0) : Wrote s (ops.foldl perform s) (textOf ops) := by
  cases hr : s.room with
  | none =>
    rw [foldl_unlimited ops s hg hw hr]
    exact ⟨by rw [hr]; rfl, ⟨fun _ k hk => absurd (hr.symm.trans hk) (by simp), fun _ => hg⟩, hw, rfl, rfl⟩
  | some k =>
    induction ops generalizing s k with
    | nil =>
      exact ⟨by rw [hr, textOf_nil]; simp [taken], ⟨fun _ k hk => by rw [textOf_nil]; exact Nat.zero_le _, fun _ => hg⟩, hw, rfl, rfl⟩
    | cons op ops ih =>
      rw [List.foldl_cons, perform_plain s hg hw, write_some s hr, textOf_cons]
      by_cases hl : op.text.length ≤ k
      · rw [decide_eq_true hl]
        obtain ⟨h1, h2, h3, h4, h5⟩ := ih { s with text := s.text ++ op.text.take k, room := some (k - op.text.length), good := true } rfl hw _ rfl
        refine ⟨?_, ?_, h3, h4, h5⟩
        · rw [h1, hr]
          show (s.text ++ op.text.take k) ++ (textOf ops).take (k - op.text.length) = s.text ++ (op.text ++ textOf ops).take k
          rw [List.take_append, List.append_assoc]
        · rw [h2, hr]
          constructor
          · intro h j hj
            cases hj
            have := h _ rfl
            rw [List.length_append]; omega
          · intro h j hj
            cases hj
            have := h _ rfl
            rw [List.length_append] at this; omega
      · rw [decide_eq_false hl, foldl_bad _ _ rfl]
        refine ⟨?_, ?_, hw, rfl, rfl⟩
        · rw [hr]
          show s.text ++ op.text.take k = s.text ++ (op.text ++ textOf ops).take k
          rw [List.take_append, show k - op.text.length = 0 by omega, List.take_zero, List.append_nil]
        · constructor
          · intro h; cases h
          · intro h
            have := h k hr
            rw [List.length_append] at this; omega

theorem perform_ins (s : Ostream) (hg : s.good = true) (x : Str) : perform s (.ins x) = perform { s with width := 0 } (.ins (padded s x)) := by
  dsimp only [perform]
  rw [if_pos hg, if_pos hg]
  have : padded { s with width := 0 } (padded s x) = padded s x := by unfold padded; simp
  rw [this]
  generalize padded s x = y
  obtain ⟨sw, sf, sl, sr, sg, st⟩ := s
  cases sr <;> rfl

theorem foldl_first (s : Ostream) (hg : s.good = true) (x : Str) (more : List Op) :
    Wrote s ((Op.ins x :: more).foldl perform s) (padded s x ++ textOf more) := by
  have h := foldl_limited (.ins (padded s x) :: more) { s with width := 0 } hg rfl
  rw [List.foldl_cons, ← perform_ins s hg, ← List.foldl_cons, textOf_cons] at h
  exact ⟨h.1, h.2, h.3, h.4, h.5⟩

theorem padded_field (s : Ostream) (x : Str) : Field s.width s.fill s.left x (padded s x) := by
  unfold padded
  dsimp only
  by_cases h : s.width ≤ x.length
  · rw [Nat.sub_eq_zero_of_le h]
    simp only [List.replicate_zero, List.append_nil, List.nil_append, ite_self]
    exact .long h
  · cases hl : s.left with
    | true => exact .onLeft (by omega) rfl
    | false => exact .onRight (by omega) rfl

end PO.HelpStream
