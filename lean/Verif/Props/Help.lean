import Verif.Props.Format
import Verif.Spec.Tree
/-
C52, C53 (descriptions), C54 (whole text), C55: printing the help of a tree of option groups.
-/
namespace PO

/-! ### C53: descriptions of several paragraphs -/

theorem splitNl_spec (s : Str) : s = List.intercalate ['\n'] (splitNl s) ∧ (∀ p ∈ splitNl s, '\n' ∉ p) ∧ splitNl s ≠ [] := by
  induction s with
  | nil => simp [splitNl, List.intercalate]
  | cons c s ih =>
    obtain ⟨h1, h2, h3⟩ := ih
    rw [splitNl]
    cases hp : splitNl s with
    | nil => exact absurd hp h3
    | cons p ps =>
      rw [hp] at h1 h2
      by_cases hc : c = '\n'
      · subst hc
        rw [if_pos rfl]
        refine ⟨?_, by simpa using h2, by simp⟩
        conv => lhs; rw [h1]
        simp [List.intercalate, List.intersperse]
      · rw [if_neg hc]
        refine ⟨?_, ?_, by simp⟩
        · conv => lhs; rw [h1]
          cases ps <;> simp [List.intercalate, List.intersperse]
        · intro q hq
          rcases List.mem_cons.1 hq with rfl | hq
          · have := h2 p (by simp)
            simp [this, Ne.symm hc]
          · exact h2 q (by simp [hq])

/-- **C53.** A description is printed paragraph by paragraph (see `C53_lossless`), each starting on a
new line at the description column. -/
theorem C53_description {desc out : Str} {col ll : Nat} (h : formatDescription desc col ll = .ok out) :
    ∃ pars outs, desc = List.intercalate ['\n'] pars ∧ (∀ p ∈ pars, '\n' ∉ p) ∧
      pars.map (formatParagraph · col (ll - 1)) = outs.map .ok ∧
      out = List.intercalate ('\n' :: List.replicate col ' ') outs := by
  obtain ⟨s1, s2, _⟩ := splitNl_spec desc
  unfold formatDescription at h
  by_cases h1 : ll > 1
  · rw [if_pos h1] at h
    by_cases h2 : ll - 1 > col
    · rw [if_pos h2] at h
      cases hp : formatPars col (ll - 1) (splitNl desc) with
      | error f => rw [hp] at h; cases h
      | ok ts =>
        rw [hp] at h
        cases h
        refine ⟨splitNl desc, ts, s1, s2, ?_, joinLines_intercalate _ _⟩
        have gen : ∀ ps ts, formatPars col (ll - 1) ps = .ok ts → ps.map (formatParagraph · col (ll - 1)) = ts.map .ok := by
          intro ps
          induction ps with
          | nil => intro ts h; cases h; rfl
          | cons p ps ih =>
            intro ts h
            rw [formatPars] at h
            cases h3 : formatParagraph p col (ll - 1) with
            | error f => rw [h3] at h; cases h
            | ok t' =>
              rw [h3] at h
              simp only at h
              cases h4 : formatPars col (ll - 1) ps with
              | error f => rw [h4] at h; cases h
              | ok ts' =>
                rw [h4] at h
                cases h
                rw [List.map_cons, List.map_cons, h3, ih _ h4]
        exact gen _ _ hp
    · rw [if_neg h2] at h; cases h
  · rw [if_neg h1] at h; cases h

/-! ### C52: the layout -/

/-- The text of a piece. -/
def Piece.text (width : Nat) : Piece → Except Fail Str
  | .caption c => .ok (c ++ [':', '\n'])
  | .blank => .ok ['\n']
  | .entry d ll =>
    match formatOne d width ll with
    | .error f => .error f
    | .ok t => .ok (t ++ ['\n'])

/-- The text of a list of pieces. -/
def piecesText (width : Nat) : List Piece → Except Fail Str
  | [] => .ok []
  | p :: ps =>
    match p.text width with
    | .error f => .error f
    | .ok t =>
      match piecesText width ps with
      | .error f => .error f
      | .ok ts => .ok (t ++ ts)

/-- The option of an entry. -/
def Piece.option? : Piece → Option OptionDesc
  | .entry d _ => some d
  | _ => none

theorem piecesText_append (w : Nat) (ps qs : List Piece) :
    piecesText w (ps ++ qs) =
      match piecesText w ps with
      | .error f => .error f
      | .ok a =>
        match piecesText w qs with
        | .error f => .error f
        | .ok b => .ok (a ++ b) := by
  induction ps with
  | nil => rw [List.nil_append, piecesText]; cases piecesText w qs <;> rfl
  | cons p ps ih =>
    rw [List.cons_append, piecesText, piecesText, ih]
    cases p.text w with
    | error f => rfl
    | ok t =>
      cases piecesText w ps with
      | error f => rfl
      | ok a =>
        cases piecesText w qs with
        | error f => rfl
        | ok b => simp

theorem formatOptions_pieces (w ll : Nat) (ds : List OptionDesc) :
    formatOptions w ll ds = piecesText w (ds.map (fun d => .entry d ll)) := by
  induction ds with
  | nil => rfl
  | cons d ds ih =>
    rw [formatOptions, List.map_cons, piecesText, Piece.text, ← ih]
    cases formatOne d w ll with
    | error f => rfl
    | ok t =>
      cases formatOptions w ll ds with
      | error f => rfl
      | ok ts => simp

theorem ownOptions_append (ds es : List OptionDesc) (bs cs : List Bool) (h : ds.length = bs.length) :
    ownOptions (ds ++ es) (bs ++ cs) = ownOptions ds bs ++ ownOptions es cs := by
  induction ds generalizing bs with
  | nil =>
    cases bs with
    | nil => cases es <;> cases cs <;> rfl
    | cons => simp at h
  | cons d ds ih =>
    cases bs with
    | nil => simp at h
    | cons b bs =>
      simp only [List.cons_append, ownOptions]
      rw [ih bs (by simpa using h)]
      split <;> simp

theorem ownOptions_true (es : List OptionDesc) : ownOptions es (es.map fun _ => true) = [] := by
  induction es with
  | nil => rfl
  | cons e es ih => simp [ownOptions, ih]

theorem printGroups_append (w : Nat) (gs hs : List OptionsDesc) :
    printGroups w (gs ++ hs) =
      match printGroups w gs with
      | .error f => .error f
      | .ok a =>
        match printGroups w hs with
        | .error f => .error f
        | .ok b => .ok (a ++ b) := by
  induction gs with
  | nil => rw [List.nil_append, printGroups]; cases printGroups w hs <;> rfl
  | cons g gs ih =>
    rw [List.cons_append, printGroups, printGroups, ih]
    cases printWidth w g with
    | error f => rfl
    | ok t =>
      cases printGroups w gs with
      | error f => rfl
      | ok a =>
        cases printGroups w hs with
        | error f => rfl
        | ok b => simp

/-- What adding the items does to the parts of the object. -/
structure Added (w : Nat) (items : Items) (o o' : OptionsDesc) : Prop where
  caption : o'.caption = o.caption
  lineLength : o'.lineLength = o.lineLength
  options : o'.options = o.options ++ items.declared
  belong : o'.belong.length = o'.options.length
  own : ownOptions o'.options o'.belong = ownOptions o.options o.belong ++ items.direct
  groups : ∃ gs, o'.groups = o.groups ++ gs ∧ printGroups w gs = piecesText w items.groupLayout

mutual
theorem Tree.build_spec (w : Nat) (t : Tree) (o : OptionsDesc) (h : t.build = .ok o) :
    printWidth w o = piecesText w t.layout ∧ o.options = t.declared := by
  cases t with
  | mk caption ll md items =>
    rw [Tree.build] at h
    unfold OptionsDesc.make at h
    split at h
    · cases h
    · rename_i o0 he
      have h0 : o0 = { caption, lineLength := ll, minDescLen := md, options := [], belong := [], groups := [] } := by
        by_cases hm : md < (if ll = 0 then uintMax else ll - 1)
        · rw [if_pos hm] at he; cases he; rfl
        · rw [if_neg hm] at he; cases he
      subst h0
      have ha := Items.addTo_spec w items _ o rfl h
      obtain ⟨c1, c2, c3, c4, c5, gs, c6, c7⟩ := ha
      obtain ⟨oc, oll, omd, oopts, obel, ogrp⟩ := o
      simp only [List.nil_append] at c1 c2 c3 c5 c6
      subst c1 c2 c3 c6
      refine ⟨?_, rfl⟩
      rw [printWidth, Tree.layout, c5, piecesText_append, piecesText_append]
      rw [show ownOptions [] [] = [] from rfl, List.nil_append, formatOptions_pieces, c7]
      have hcap : piecesText w (if oc = [] then [] else [.caption oc]) = .ok (if oc = [] then [] else oc ++ str% ":\n") := by
        by_cases hc : oc = []
        · simp [hc, piecesText]
        · rw [if_neg hc, if_neg hc]
          simp only [piecesText, Piece.text, List.append_nil]
      rw [hcap]
      simp only
      cases piecesText w (items.direct.map fun d => .entry d oll) with
      | error f => rfl
      | ok b =>
        cases piecesText w items.groupLayout with
        | error f => rfl
        | ok g => rfl

theorem Items.addTo_spec (w : Nat) (items : Items) (o o' : OptionsDesc) (hb : o.belong.length = o.options.length)
    (h : items.addTo o = .ok o') : Added w items o o' := by
  cases items with
  | nil =>
    rw [Items.addTo] at h
    cases h
    exact ⟨rfl, rfl, by simp [Items.declared], hb, by simp [Items.direct], [], by simp, by simp [printGroups, Items.groupLayout, piecesText]⟩
  | opt d rest =>
    rw [Items.addTo] at h
    have ha := Items.addTo_spec w rest _ o' (by simp [OptionsDesc.addOption, hb]) h
    obtain ⟨c1, c2, c3, c4, c5, gs, c6, c7⟩ := ha
    refine ⟨c1, c2, by rw [c3]; simp [OptionsDesc.addOption, Items.declared], c4, ?_, gs, c6, by rw [Items.groupLayout]; exact c7⟩
    rw [c5]
    simp only [OptionsDesc.addOption]
    rw [ownOptions_append _ _ _ _ hb.symm]
    simp [ownOptions, Items.direct]
  | group t rest =>
    rw [Items.addTo] at h
    cases ht : t.build with
    | error f => rw [ht] at h; cases h
    | ok g =>
      rw [ht] at h
      simp only at h
      obtain ⟨p1, p2⟩ := Tree.build_spec w t g ht
      have ha := Items.addTo_spec w rest _ o' (by simp [OptionsDesc.addGroup, hb]) h
      obtain ⟨c1, c2, c3, c4, c5, gs, c6, c7⟩ := ha
      refine ⟨c1, c2, by rw [c3]; simp [OptionsDesc.addGroup, Items.declared, p2], c4, ?_, g :: gs, by rw [c6]; simp [OptionsDesc.addGroup], ?_⟩
      · rw [c5]
        simp only [OptionsDesc.addGroup]
        rw [ownOptions_append _ _ _ _ hb.symm, ownOptions_true]
        simp [Items.direct]
      · rw [Items.groupLayout, printGroups, c7, p1, List.cons_append, piecesText, Piece.text, piecesText_append]
        cases piecesText w t.layout with
        | error f => rfl
        | ok a =>
          cases piecesText w rest.groupLayout with
          | error f => rfl
          | ok b => simp
end

mutual
theorem Tree.layout_perm (t : Tree) : (t.layout.filterMap Piece.option?).Perm t.declared := by
  cases t with
  | mk caption ll md items =>
    rw [Tree.layout, Tree.declared, List.filterMap_append, List.filterMap_append]
    have h1 : List.filterMap Piece.option? (if caption = [] then [] else [.caption caption]) = [] := by
      split <;> rfl
    have h2 : List.filterMap Piece.option? (items.direct.map fun d => .entry d ll) = items.direct := by
      generalize items.direct = ds
      induction ds with
      | nil => rfl
      | cons d ds ih => rw [List.map_cons, List.filterMap_cons_some (f := Piece.option?) (b := d) rfl, ih]
    rw [h1, h2, List.nil_append]
    exact Items.layout_perm items

theorem Items.layout_perm (items : Items) : (items.direct ++ items.groupLayout.filterMap Piece.option?).Perm items.declared := by
  cases items with
  | nil => exact .refl _
  | opt d rest =>
    rw [Items.direct, Items.groupLayout, Items.declared, List.cons_append]
    exact (Items.layout_perm rest).cons d
  | group t rest =>
    rw [Items.direct, Items.groupLayout, Items.declared, List.cons_append, List.filterMap_cons_none rfl, List.filterMap_append]
    have h1 := Tree.layout_perm t
    have h2 := Items.layout_perm rest
    refine .trans ?_ (h1.append h2)
    rw [← List.append_assoc, ← List.append_assoc]
    exact List.perm_append_comm.append_right _
end

/-- **C52.** The help of a group is its caption, an entry for each option added directly, in order,
and then the help of each group added, in order; -/
theorem C52_layout (t : Tree) (o : OptionsDesc) (h : t.build = .ok o) (width : Nat) :
    (width ≠ 0 → o.print width = piecesText width t.layout) ∧
    (∀ w, columnWidth o = .ok w → o.print = piecesText w t.layout) := by
  constructor
  · intro hw
    rw [OptionsDesc.print, if_neg hw]
    exact (t.build_spec width o h).1
  · intro w hw
    rw [OptionsDesc.print, if_pos rfl, hw]
    exact (t.build_spec w o h).1

/-- ... and each declared option has exactly one entry. -/
theorem C52_once (t : Tree) (o : OptionsDesc) (h : t.build = .ok o) :
    o.options = t.declared ∧ (t.layout.filterMap Piece.option?).Perm o.options := by
  have := (t.build_spec 1 o h).2
  exact ⟨this, by rw [this]; exact t.layout_perm⟩

/-- Two groups: the option of the inner group is printed after those added later to the outer. -/
example :
    (match Tree.build (.mk (Test.L "Outer") 80 40 (.opt (Test.od "a" Test.unt "first")
        (.group (.mk (Test.L "Inner") 80 40 (.opt (Test.od "b" Test.unt) .nil)) (.opt (Test.od "c" Test.unt) .nil)))) with
    | .ok o => match o.print with
      | .ok t => String.ofList t
      | .error _ => ""
    | .error _ => "") =
  "Outer:\n  --a                    first\n  --c \n\nInner:\n  --b \n" := by decide

/-! ### C54: the whole help text -/

theorem piecesText_mem {w : Nat} {ps : List Piece} {text : Str} (h : piecesText w ps = .ok text) (p : Piece) (hp : p ∈ ps) :
    ∃ t, p.text w = .ok t := by
  induction ps generalizing text with
  | nil => cases hp
  | cons q ps ih =>
    rw [piecesText] at h
    cases hq : q.text w with
    | error f => rw [hq] at h; cases h
    | ok t =>
      rw [hq] at h
      simp only at h
      cases hr : piecesText w ps with
      | error f => rw [hr] at h; cases h
      | ok ts =>
        rcases List.mem_cons.1 hp with rfl | hp
        · exact ⟨t, hq⟩
        · exact ih hr hp

theorem piecesText_ok {w : Nat} {ps : List Piece} (h : ∀ p ∈ ps, ∃ t, p.text w = .ok t) : ∃ text, piecesText w ps = .ok text := by
  induction ps with
  | nil => exact ⟨[], rfl⟩
  | cons p ps ih =>
    obtain ⟨t, ht⟩ := h p (by simp)
    obtain ⟨ts, hts⟩ := ih fun q hq => h q (by simp [hq])
    exact ⟨t ++ ts, by rw [piecesText, ht, hts]⟩

theorem piecesText_fit {w B : Nat} {ps : List Piece} {text : Str} (h : piecesText w ps = .ok text)
    (hp : ∀ p ∈ ps, ∀ t, p.text w = .ok t → ∃ b, t = b ++ ['\n'] ∧ LinesFit B b) : LinesFit B text := by
  induction ps generalizing text with
  | nil => cases h; exact .short (by simp)
  | cons q ps ih =>
    rw [piecesText] at h
    cases hq : q.text w with
    | error f => rw [hq] at h; cases h
    | ok t =>
      rw [hq] at h
      simp only at h
      cases hr : piecesText w ps with
      | error f => rw [hr] at h; cases h
      | ok ts =>
        rw [hr] at h
        cases h
        obtain ⟨b, rfl, hb⟩ := hp q (by simp) t hq
        rw [List.append_assoc]
        exact LinesFit.newline hb (ih hr fun p hp' => hp p (by simp [hp']))

/-- **C54.** No line of the help is longer than `B` if the line lengths of the groups are at most
`B + 1` and the captions and left columns fit. -/
theorem C54_help (t : Tree) (o : OptionsDesc) (h : t.build = .ok o) (width B : Nat) (text : Str) (hp : o.print width = .ok text)
    (hcap : ∀ c, .caption c ∈ t.layout → c.length < B)
    (hentry : ∀ d ll, .entry d ll ∈ t.layout → ll ≤ B + 1 ∧ ∀ left, d.leftColumn = .ok left → left.length ≤ B) :
    LinesFit B text := by
  have : ∃ w, piecesText w t.layout = .ok text := by
    by_cases hw : width = 0
    · subst hw
      cases hc : columnWidth o with
      | error f => rw [OptionsDesc.print, if_pos rfl, hc] at hp; cases hp
      | ok w => exact ⟨w, by rw [← (C52_layout t o h 0).2 w hc]; exact hp⟩
    · exact ⟨width, by rw [← (C52_layout t o h width).1 hw]; exact hp⟩
  obtain ⟨w, hw⟩ := this
  refine piecesText_fit hw ?_
  intro p hp t ht
  cases p with
  | caption c =>
    cases ht
    have := hcap c hp
    exact ⟨c ++ [':'], by simp, .short (by simp; omega)⟩
  | blank => cases ht; exact ⟨[], rfl, .short (by simp)⟩
  | entry d ll =>
    rw [Piece.text] at ht
    cases hf : formatOne d w ll with
    | error f => rw [hf] at ht; cases ht
    | ok e =>
      rw [hf] at ht
      cases ht
      refine ⟨e, rfl, ?_⟩
      obtain ⟨h1, h2⟩ := hentry d ll hp
      cases hl : d.leftColumn with
      | error f => unfold formatOne at hf; rw [hl] at hf; cases hf
      | ok left =>
        have := h2 left hl
        exact (C54_entry hl hf).mono (by omega)

/-! ### C55: no failed assertions -/

mutual
theorem Tree.layout_entry (t : Tree) (d : OptionDesc) (ll : Nat) (h : .entry d ll ∈ t.layout) :
    d ∈ t.declared ∧ ∃ md, (ll, md) ∈ t.sizes := by
  cases t with
  | mk caption l md items =>
    rw [Tree.layout, List.mem_append, List.mem_append] at h
    rw [Tree.declared, Tree.sizes]
    rcases h with (h | h) | h
    · exfalso
      split at h <;> simp at h
    · obtain ⟨x, hx, e⟩ := List.mem_map.1 h
      cases e
      exact ⟨(Items.layout_perm items).subset (List.mem_append_left _ hx), md, by simp⟩
    · obtain ⟨h1, m, h2⟩ := Items.layout_entry items d ll h
      exact ⟨h1, m, List.mem_cons_of_mem _ h2⟩

theorem Items.layout_entry (items : Items) (d : OptionDesc) (ll : Nat) (h : .entry d ll ∈ items.groupLayout) :
    d ∈ items.declared ∧ ∃ md, (ll, md) ∈ items.sizes := by
  cases items with
  | nil => simp [Items.groupLayout] at h
  | opt x rest =>
    rw [Items.groupLayout] at h
    rw [Items.declared, Items.sizes]
    obtain ⟨h1, m, h2⟩ := Items.layout_entry rest d ll h
    exact ⟨List.mem_cons_of_mem _ h1, m, h2⟩
  | group t rest =>
    rw [Items.groupLayout, List.cons_append, List.mem_cons, List.mem_append] at h
    rw [Items.declared, Items.sizes]
    rcases h with h | h | h
    · cases h
    · obtain ⟨h1, m, h2⟩ := Tree.layout_entry t d ll h
      exact ⟨List.mem_append_left _ h1, m, List.mem_append_left _ h2⟩
    · obtain ⟨h1, m, h2⟩ := Items.layout_entry rest d ll h
      exact ⟨List.mem_append_right _ h1, m, List.mem_append_right _ h2⟩
end

/-- Objects for which the column width can be computed. -/
inductive WidthOk : OptionsDesc → Prop
  | mk (o) : o.minDescLen + 1 ≤ o.lineLength → (∀ d ∈ o.options, ∃ s, d.leftColumn = .ok s) → (∀ g ∈ o.groups, WidthOk g) → WidthOk o

theorem maxLeft_ok (ds : List OptionDesc) (w : Nat) (h : ∀ d ∈ ds, ∃ s, d.leftColumn = .ok s) : ∃ w', maxLeft ds w = .ok w' := by
  induction ds generalizing w with
  | nil => exact ⟨w, rfl⟩
  | cons d ds ih =>
    obtain ⟨s, hs⟩ := h d (by simp)
    rw [maxLeft, hs]
    exact ih _ fun x hx => h x (by simp [hx])

theorem groupsWidth_ok (gs : List OptionsDesc) (w : Nat) (h : ∀ g ∈ gs, ∃ w', columnWidth g = .ok w') : ∃ w', groupsWidth gs w = .ok w' := by
  induction gs generalizing w with
  | nil => exact ⟨w, by rw [groupsWidth]⟩
  | cons g gs ih =>
    obtain ⟨w', hw⟩ := h g (by simp)
    rw [groupsWidth, hw]
    exact ih _ fun x hx => h x (by simp [hx])

theorem WidthOk.columnWidth {o : OptionsDesc} (h : WidthOk o) :
    ∃ w, columnWidth o = .ok w ∧ 0 < w ∧ w ≤ o.lineLength - o.minDescLen := by
  induction h with
  | mk o h1 h2 _ ih =>
    obtain ⟨c, ll, md, opts, bel, gs⟩ := o
    simp only at h1 h2 ih
    obtain ⟨w1, e1⟩ := maxLeft_ok opts 23 h2
    obtain ⟨w2, e2⟩ := groupsWidth_ok gs w1 fun g hg => (ih g hg).imp fun w hw => hw.1
    refine ⟨_, by rw [PO.columnWidth, e1]; simp only; rw [e2]; simp only; rw [if_pos h1], by omega, ?_⟩
    simp only
    omega

theorem WidthOk.add {o g : OptionsDesc} (h : WidthOk o) (hg : WidthOk g) : WidthOk (o.addGroup g) := by
  cases h with
  | mk _ h1 h2 h3 =>
    cases hg with
    | mk _ g1 g2 g3 =>
      refine .mk _ h1 ?_ ?_
      · intro d hd
        rcases List.mem_append.1 hd with hd | hd
        · exact h2 d hd
        · exact g2 d hd
      · intro x hx
        rcases List.mem_append.1 hx with hx | hx
        · exact h3 x hx
        · simp at hx
          subst hx
          exact .mk _ g1 g2 g3

mutual
theorem Tree.widthOk (t : Tree) (o : OptionsDesc) (h : t.build = .ok o) (hl : ∀ d ∈ t.declared, ∃ s, d.leftColumn = .ok s)
    (hs : ∀ g ∈ t.sizes, 0 < g.1) : WidthOk o ∧ ∀ c ll md items, t = .mk c ll md items → o.lineLength = ll ∧ o.minDescLen = md := by
  cases t with
  | mk caption ll md items =>
    rw [Tree.build] at h
    unfold OptionsDesc.make at h
    have h0 : 0 < ll := hs (ll, md) (by rw [Tree.sizes]; simp)
    rw [if_neg (show ¬ ll = 0 by omega)] at h
    by_cases hm : md < ll - 1
    · rw [if_pos hm] at h
      simp only at h
      have := Items.widthOk items _ o (.mk _ (by simp only; omega) (by simp) (by simp)) h
        (by rw [Tree.declared] at hl; exact hl) (fun g hg => hs g (by rw [Tree.sizes]; simp [hg]))
      refine ⟨this.1, ?_⟩
      intro c' ll' md' items' e
      cases e
      exact ⟨this.2.1, this.2.2⟩
    · rw [if_neg hm] at h; cases h

theorem Items.widthOk (items : Items) (o o' : OptionsDesc) (ho : WidthOk o) (h : items.addTo o = .ok o')
    (hl : ∀ d ∈ items.declared, ∃ s, d.leftColumn = .ok s) (hs : ∀ g ∈ items.sizes, 0 < g.1) :
    WidthOk o' ∧ o'.lineLength = o.lineLength ∧ o'.minDescLen = o.minDescLen := by
  cases items with
  | nil => rw [Items.addTo] at h; cases h; exact ⟨ho, rfl, rfl⟩
  | opt d rest =>
    rw [Items.addTo] at h
    rw [Items.declared] at hl
    rw [Items.sizes] at hs
    refine Items.widthOk rest (o.addOption d) o' ?_ h (fun x hx => hl x (by simp [hx])) hs
    cases ho with
    | mk _ h1 h2 h3 =>
      refine .mk _ h1 ?_ h3
      intro x hx
      rcases List.mem_append.1 hx with hx | hx
      · exact h2 x hx
      · simp at hx; subst hx; exact hl x (by simp)
  | group t rest =>
    rw [Items.addTo] at h
    rw [Items.declared] at hl
    rw [Items.sizes] at hs
    cases ht : t.build with
    | error f => rw [ht] at h; cases h
    | ok g =>
      rw [ht] at h
      have hg := (Tree.widthOk t g ht (fun x hx => hl x (by simp [hx])) (fun x hx => hs x (by simp [hx]))).1
      exact Items.widthOk rest (o.addGroup g) o' (ho.add hg) h (fun x hx => hl x (by simp [hx])) (fun x hx => hs x (by simp [hx]))
end

/-- A description in which each paragraph has at most one tab, and that before column `n`. -/
def TabsOk (n : Nat) (desc : Str) : Prop :=
  ∀ pre par post, desc = pre ++ par ++ post → '\n' ∉ par → par.count '\t' ≤ 1 ∧ ('\t' ∈ par → tabColumn par < n)

theorem splitNl_infix (s p : Str) (h : p ∈ splitNl s) : ∃ pre post, s = pre ++ p ++ post := by
  have h1 := (splitNl_spec s).1
  rw [h1]
  generalize splitNl s = ps at *
  clear h1
  induction ps with
  | nil => cases h
  | cons q ps ih =>
    cases ps with
    | nil =>
      simp at h
      subst h
      exact ⟨[], [], by simp [List.intercalate]⟩
    | cons r ps =>
      have e : List.intercalate ['\n'] (q :: r :: ps) = q ++ '\n' :: List.intercalate ['\n'] (r :: ps) := by
        simp [List.intercalate, List.intersperse]
      rw [e]
      rcases List.mem_cons.1 h with rfl | h
      · exact ⟨[], _, by rw [List.nil_append]⟩
      · obtain ⟨pre, post, e2⟩ := ih h
        exact ⟨q ++ '\n' :: pre, post, by rw [e2]; simp⟩

theorem formatParagraph_ok (par : Str) (indent ll : Nat) (h : indent < ll) (hc : par.count '\t' ≤ 1) (ht : '\t' ∈ par → tabColumn par < ll - indent) :
    ∃ out, formatParagraph par indent ll = .ok out := by
  unfold formatParagraph paragraphLines
  rw [if_pos h]
  simp only
  obtain ⟨⟨pi, p⟩, hp⟩ := parIndent_succeeds par (ll - indent) hc ht
  obtain ⟨_, _, _, h4⟩ := parIndent_ok hp
  rw [hp]
  simp only
  by_cases hs : p.length < ll - indent
  · rw [if_pos hs]; exact ⟨_, rfl⟩
  · rw [if_neg hs]
    obtain ⟨ls, e⟩ := wrapRest_ok (ll - indent - pi) (by omega) p.length (p.drop (lineEnd p (ll - indent))) (by rw [List.length_drop]; omega)
    rw [e]
    exact ⟨_, rfl⟩

theorem formatDescription_ok (desc : Str) (col ll : Nat) (h : col + 1 < ll) (ht : TabsOk (ll - 1 - col) desc) :
    ∃ out, formatDescription desc col ll = .ok out := by
  unfold formatDescription
  rw [if_pos (by omega), if_pos (by omega)]
  have gen : ∀ ps : List Str, (∀ p ∈ ps, p ∈ splitNl desc) → ∃ ts, formatPars col (ll - 1) ps = .ok ts := by
    intro ps
    induction ps with
    | nil => intro _; exact ⟨[], rfl⟩
    | cons p ps ih =>
      intro hp
      obtain ⟨ts, e⟩ := ih fun q hq => hp q (by simp [hq])
      have hmem := hp p (by simp)
      obtain ⟨pre, post, e2⟩ := splitNl_infix _ _ hmem
      obtain ⟨h1, h2⟩ := ht pre p post e2 ((splitNl_spec desc).2.1 p hmem)
      obtain ⟨t, e3⟩ := formatParagraph_ok p col (ll - 1) (by omega) h1 h2
      exact ⟨t :: ts, by rw [formatPars, e3]; simp only; rw [e]⟩
  obtain ⟨ts, e⟩ := gen _ fun _ h => h
  rw [e]
  exact ⟨_, rfl⟩

theorem leftColumn_ok (d : OptionDesc) (h : d.shortName ≠ [] ∨ d.longNames ≠ []) : ∃ s, d.leftColumn = .ok s := by
  unfold OptionDesc.leftColumn OptionDesc.formatName
  by_cases hs : d.shortName ≠ []
  · rw [if_pos hs]
    cases d.longNames <;> exact ⟨_, rfl⟩
  · rw [if_neg hs]
    cases hl : d.longNames with
    | nil => rcases h with h | h <;> contradiction
    | cons n ns => exact ⟨_, rfl⟩

/-- **C55, what holds.** Printing succeeds if the minimum description length of the outer group is at
least 2, no group has a smaller line length than the outer one, every option has a name, and in each
paragraph there is at most one tab, within the minimum description length. -/
theorem C55_print_partial (caption : Str) (ll md : Nat) (items : Items) (o : OptionsDesc)
    (h : Tree.build (.mk caption ll md items) = .ok o) (hll : 0 < ll) (hmd : 2 ≤ md)
    (hsizes : ∀ g ∈ items.sizes, ll ≤ g.1)
    (hnames : ∀ d ∈ items.declared, d.shortName ≠ [] ∨ d.longNames ≠ [])
    (htabs : ∀ d ∈ items.declared, TabsOk (md - 1) d.description) :
    ∃ text, o.print = .ok text := by
  have hleft : ∀ d ∈ (Tree.mk caption ll md items).declared, ∃ s, d.leftColumn = .ok s := by
    intro d hd
    rw [Tree.declared] at hd
    exact leftColumn_ok d (hnames d hd)
  have hsz : ∀ g ∈ (Tree.mk caption ll md items).sizes, ll ≤ g.1 := by
    intro g hg
    rw [Tree.sizes, List.mem_cons] at hg
    rcases hg with rfl | hg
    · exact Nat.le_refl _
    · exact hsizes g hg
  obtain ⟨hw, hdim⟩ := Tree.widthOk _ o h hleft fun g hg => Nat.lt_of_lt_of_le hll (hsz g hg)
  obtain ⟨e1, e2⟩ := hdim _ _ _ _ rfl
  obtain ⟨w, hcw, _, hle⟩ := hw.columnWidth
  rw [(C52_layout _ o h 0).2 w hcw]
  have hmdll : md < ll := by
    cases hw with
    | mk _ h1 _ _ => omega
  refine piecesText_ok ?_
  intro p hp
  cases p with
  | caption c => exact ⟨_, rfl⟩
  | blank => exact ⟨_, rfl⟩
  | entry d l =>
    obtain ⟨h1, m, h2⟩ := Tree.layout_entry _ d l hp
    obtain ⟨left, hl⟩ := hleft d h1
    rw [Tree.declared] at h1
    have hl' := hsz _ h2
    simp only at hl'
    have hf : ∃ t, formatOne d w l = .ok t := by
      unfold formatOne
      rw [hl]
      simp only
      by_cases hd : d.description = []
      · rw [if_pos hd]; exact ⟨_, rfl⟩
      · rw [if_neg hd]
        obtain ⟨t, ht⟩ := formatDescription_ok d.description w l (by omega) (by
          intro pre par post e hn
          obtain ⟨a, b⟩ := htabs d h1 pre par post e hn
          exact ⟨a, fun ht => by have := b ht; omega⟩)
        rw [ht]
        exact ⟨_, rfl⟩
    obtain ⟨t, ht⟩ := hf
    exact ⟨t ++ ['\n'], by rw [Piece.text, ht]⟩

/-- With the default sizes everywhere only the tabs and names matter. -/
theorem C55_default_sizes (caption : Str) (items : Items) (o : OptionsDesc)
    (h : Tree.build (.mk caption 80 40 items) = .ok o) (hsizes : ∀ g ∈ items.sizes, g = (80, 40))
    (hnames : ∀ d ∈ items.declared, d.shortName ≠ [] ∨ d.longNames ≠ [])
    (htabs : ∀ d ∈ items.declared, '\t' ∉ d.description) :
    ∃ text, o.print = .ok text := by
  refine C55_print_partial caption 80 40 items o h (by decide) (by decide) (fun g hg => by rw [hsizes g hg]; decide) hnames ?_
  intro d hd pre par post e _
  have hn : '\t' ∉ par := fun hp => htabs d hd (by rw [e]; simp [hp])
  exact ⟨by rw [List.count_eq_zero.2 hn]; omega, fun hp => absurd hp hn⟩

/-- **C55 is false**: a group accepted by the constructor, with minimum description length 1, cannot
be printed; -/
theorem C55_negation :
    ∃ o, Tree.build (.mk [] 24 1 (.opt (Test.od "foo" Test.unt "text") .nil)) = .ok o ∧ o.print = .error (.ub .formatAssert) :=
  ⟨_, rfl, by rfl⟩

/-- ... nor one containing a group with a smaller line length. -/
theorem C55_negation_nested :
    ∃ o, Tree.build (.mk [] 80 40 (.group (.mk [] 20 10 (.opt (Test.od "foo" Test.unt "text") .nil)) .nil)) = .ok o ∧
      o.print = .error (.ub .formatAssert) :=
  ⟨_, rfl, by rfl⟩

example : ∃ o, Tree.build (.mk [] 80 40 (.opt (Test.od "foo" Test.unt "one\ttwo") .nil)) = .ok o ∧
    o.print = .ok (Test.L "  --foo                 onetwo\n") := ⟨_, rfl, by rfl⟩

end PO
