import Verif.Spec.LettersHelp
import Verif.Props.Letters
/-
C155: to the help no letter is special.
-/
namespace PO

namespace Letters

variable {π : Char → Char}

theorem spaces_ren (H : HarmlessHelp π) (n : Nat) : ren π (spaces n) = spaces n := by
  unfold ren spaces
  rw [List.map_replicate, (H.blank ' ').2 rfl]

theorem at_ren {x : Char} (hx : ∀ c, π c = x ↔ c = x) (s : Str) (i : Nat) : (ren π s)[i]? = some x ↔ s[i]? = some x := by
  rw [List.getElem?_map]
  cases s[i]? with
  | none => simp
  | some c => simp [hx]

theorem findChar_ren' {x : Char} (hx : ∀ c, π c = x ↔ c = x) (s : Str) : findChar (ren π s) x = findChar s x := by
  induction s with
  | nil => rfl
  | cons a s ih =>
    show findChar (π a :: ren π s) x = findChar (a :: s) x
    unfold findChar
    rw [ih]
    simp only [hx]

theorem count_ren {x : Char} (hx : ∀ c, π c = x ↔ c = x) (s : Str) : (ren π s).count x = s.count x := by
  induction s with
  | nil => rfl
  | cons a s ih =>
    show (π a :: ren π s).count x = (a :: s).count x
    rw [List.count_cons, List.count_cons, ih]
    simp only [beq_iff_eq, hx]

theorem take_ren (s : Str) (n : Nat) : (ren π s).take n = ren π (s.take n) := List.map_take.symm

theorem drop_ren (s : Str) (n : Nat) : (ren π s).drop n = ren π (s.drop n) := List.map_drop.symm

theorem afterLastSpace_ren (H : HarmlessHelp π) (s : Str) : afterLastSpace (ren π s) = afterLastSpace s := by
  unfold afterLastSpace
  rw [show (ren π s).reverse = s.reverse.map π from List.map_reverse.symm, List.dropWhile_map, List.length_map]
  congr 2
  funext c
  simp [H.blank c]

theorem lineEnd_ren (H : HarmlessHelp π) (s : Str) (len : Nat) : lineEnd (ren π s) len = lineEnd s len := by
  unfold lineEnd
  dsimp only
  simp only [List.length_map, ne_eq, at_ren H.blank, take_ren, afterLastSpace_ren H]

theorem dropLead_ren (H : HarmlessHelp π) (s : Str) : dropLead (ren π s) = ren π (dropLead s) := by
  match s with
  | [] => rfl
  | [a] =>
    have e : ∀ x : Char, dropLead [x] = [x] := by
      intro x
      unfold dropLead
      split
      · rename_i h; cases h
      · rfl
    show dropLead [π a] = ren π (dropLead [a])
    rw [e, e]
    rfl
  | a :: c :: r =>
    show dropLead (π a :: π c :: ren π r) = ren π (dropLead (a :: c :: r))
    have e : ∀ (x y : Char) (l : Str), dropLead (x :: y :: l) = if x = ' ' ∧ y ≠ ' ' then y :: l else x :: y :: l := by
      intro x y l
      by_cases hx : x = ' '
      · subst hx
        simp [dropLead]
      · rw [if_neg (fun h => hx h.1)]
        unfold dropLead
        split
        · rename_i h
          injection h with h
          exact absurd h hx
        · rfl
    rw [e, e]
    simp only [H.blank, ne_eq]
    split <;> rfl

theorem wrapRest_ren (H : HarmlessHelp π) (fuel : Nat) (s : Str) (len : Nat) :
    wrapRest fuel (ren π s) len = renWith π (List.map (ren π)) (wrapRest fuel s len) := by
  induction fuel generalizing s with
  | zero =>
    cases s with
    | nil => rfl
    | cons c s => rfl
  | succ fuel ih =>
    cases s with
    | nil => rfl
    | cons c s =>
      show wrapRest (fuel + 1) (π c :: ren π s) len = _
      rw [wrapRest, wrapRest]
      have hd : dropLead (π c :: ren π s) = ren π (dropLead (c :: s)) := dropLead_ren H (c :: s)
      rw [hd]
      dsimp only
      rw [lineEnd_ren H, drop_ren, ih, take_ren]
      split
      · rfl
      · cases wrapRest fuel ((dropLead (c :: s)).drop (lineEnd (dropLead (c :: s)) len)) len <;> rfl
      · exact nofun
      · exact nofun

theorem parIndent_ren (H : HarmlessHelp π) (par : Str) (len : Nat) :
    parIndent (ren π par) len = renWith π (fun r => (r.1, ren π r.2)) (parIndent par len) := by
  unfold parIndent
  rw [findChar_ren' H.tab, count_ren H.tab]
  cases findChar par '\t' with
  | none => rfl
  | some i =>
    dsimp only
    rw [take_ren, drop_ren, show ren π (par.take i) ++ ren π (par.drop (i + 1)) = ren π (par.take i ++ par.drop (i + 1)) from List.map_append.symm]
    split
    · rfl
    · split <;> rfl

theorem paragraphLines_ren (H : HarmlessHelp π) (par : Str) (indent lineLength : Nat) :
    paragraphLines (ren π par) indent lineLength = renWith π (fun r => (r.1, r.2.map (ren π))) (paragraphLines par indent lineLength) := by
  unfold paragraphLines
  dsimp only
  rw [parIndent_ren H]
  by_cases h : indent < lineLength
  · rw [if_pos h, if_pos h]
    cases parIndent par (lineLength - indent) with
    | error f => rfl
    | ok r =>
      obtain ⟨i, p⟩ := r
      dsimp only [renWith]
      rw [lineEnd_ren H, drop_ren, wrapRest_ren H, take_ren, List.length_map]
      by_cases h2 : p.length < lineLength - indent
      · rw [if_pos h2, if_pos h2]
        rfl
      · rw [if_neg h2, if_neg h2]
        cases wrapRest p.length (p.drop (lineEnd p (lineLength - indent))) (lineLength - indent - i) <;> rfl
  · rw [if_neg h, if_neg h]
    rfl

theorem joinLines_ren (H : HarmlessHelp π) (pad : Nat) (ls : List Str) : joinLines pad (ls.map (ren π)) = ren π (joinLines pad ls) := by
  induction ls with
  | nil => rfl
  | cons l ls ih =>
    cases ls with
    | nil => rfl
    | cons m ls =>
      show ren π l ++ '\n' :: spaces pad ++ joinLines pad ((m :: ls).map (ren π)) = ren π (l ++ '\n' :: spaces pad ++ joinLines pad (m :: ls))
      rw [ih]
      refine Eq.trans ?_ List.map_append.symm
      refine congrArg (· ++ ren π (joinLines pad (m :: ls))) ?_
      refine Eq.trans ?_ List.map_append.symm
      refine congrArg (ren π l ++ ·) ?_
      show _ = π '\n' :: ren π (spaces pad)
      rw [spaces_ren H, (H.newline '\n').2 rfl]

theorem formatParagraph_ren (H : HarmlessHelp π) (par : Str) (indent lineLength : Nat) :
    formatParagraph (ren π par) indent lineLength = renWith π (ren π) (formatParagraph par indent lineLength) := by
  unfold formatParagraph
  rw [paragraphLines_ren H]
  cases paragraphLines par indent lineLength with
  | error f => rfl
  | ok r =>
    exact congrArg Except.ok (joinLines_ren H _ _)

theorem splitNl_ren (H : HarmlessHelp π) (s : Str) : splitNl (ren π s) = (splitNl s).map (ren π) := by
  induction s with
  | nil => rfl
  | cons c s ih =>
    show splitNl (π c :: ren π s) = _
    rw [splitNl, splitNl, ih]
    simp only [H.newline]
    split
    · rfl
    · cases splitNl s <;> rfl

theorem formatPars_ren (H : HarmlessHelp π) (indent lineLength : Nat) (ps : List Str) :
    formatPars indent lineLength (ps.map (ren π)) = renWith π (List.map (ren π)) (formatPars indent lineLength ps) := by
  induction ps with
  | nil => rfl
  | cons p ps ih =>
    rw [List.map_cons, formatPars, formatPars, formatParagraph_ren H, ih]
    cases formatParagraph p indent lineLength with
    | error f => rfl
    | ok t => cases formatPars indent lineLength ps <;> rfl

theorem formatDescription_ren (H : HarmlessHelp π) (desc : Str) (firstCol lineLength : Nat) :
    formatDescription (ren π desc) firstCol lineLength = renWith π (ren π) (formatDescription desc firstCol lineLength) := by
  unfold formatDescription
  rw [splitNl_ren H, formatPars_ren H]
  split
  · split
    · cases formatPars firstCol (lineLength - 1) (splitNl desc) with
      | error f => rfl
      | ok ts => exact congrArg Except.ok (joinLines_ren H _ _)
    · rfl
  · rfl

theorem leftColumn_ren (H : HarmlessHelp π) (d : OptionDesc) : (renShown π d).leftColumn = renWith π (ren π) d.leftColumn := by
  have hb := (H.blank ' ').2 rfl
  have hp : (renShown π d).formatParameter = ren π d.formatParameter := by
    unfold OptionDesc.formatParameter
    show (if d.semantic.maxTokens ≠ 0 then ren π d.semantic.name else []) = _
    split <;> rfl
  have hf : (renShown π d).formatName = renWith π (ren π) d.formatName := by
    unfold OptionDesc.formatName
    rw [show (renShown π d).shortName = ren π d.shortName from rfl, show (renShown π d).longNames = d.longNames.map (ren π) from rfl]
    have h0 : ren π d.shortName = [] ↔ d.shortName = [] := by simp
    simp only [ne_eq, h0]
    by_cases h : d.shortName = []
    · rw [if_neg (fun e => e h), if_neg (fun e => e h)]
      cases d.longNames with
      | nil => rfl
      | cons n ns =>
        refine congrArg Except.ok ?_
        simp [ren, H.dash]
    · rw [if_pos h, if_pos h]
      cases d.longNames with
      | nil => rfl
      | cons n ns =>
        refine congrArg Except.ok ?_
        simp [ren, H.dash, H.opening, H.closing, hb]
  unfold OptionDesc.leftColumn
  rw [hf, hp]
  cases d.formatName with
  | error f => rfl
  | ok n =>
    refine congrArg Except.ok ?_
    simp [ren, hb]

theorem formatOne_ren (H : HarmlessHelp π) (d : OptionDesc) (firstCol lineLength : Nat) :
    formatOne (renShown π d) firstCol lineLength = renWith π (ren π) (formatOne d firstCol lineLength) := by
  unfold formatOne
  rw [leftColumn_ren H]
  cases d.leftColumn with
  | error f => rfl
  | ok ss =>
    dsimp only [renWith]
    rw [show (renShown π d).description = ren π d.description from rfl, formatDescription_ren H, List.length_map]
    have h0 : ren π d.description = [] ↔ d.description = [] := by simp
    by_cases h : d.description = []
    · rw [if_pos h, if_pos (h0.2 h)]
    rw [if_neg h, if_neg (fun e => h (h0.1 e))]
    cases formatDescription d.description firstCol lineLength with
    | error f => rfl
    | ok t =>
      refine congrArg Except.ok ?_
      refine Eq.trans ?_ List.map_append.symm
      refine congrArg (· ++ ren π t) ?_
      refine Eq.trans ?_ List.map_append.symm
      refine congrArg (ren π ss ++ ·) ?_
      split
      · show _ = π '\n' :: ren π (spaces firstCol)
        rw [spaces_ren H, (H.newline '\n').2 rfl]
      · exact (spaces_ren H _).symm

theorem maxLeft_ren (H : HarmlessHelp π) (ds : List OptionDesc) (w : Nat) : maxLeft (ds.map (renShown π)) w = renWith π id (maxLeft ds w) := by
  induction ds generalizing w with
  | nil => rfl
  | cons d ds ih =>
    rw [List.map_cons, maxLeft, maxLeft, leftColumn_ren H]
    cases d.leftColumn with
    | error f => rfl
    | ok ss =>
      show maxLeft (ds.map (renShown π)) (max w (ren π ss).length) = _
      rw [ih, List.length_map]

mutual
theorem columnWidth_ren (H : HarmlessHelp π) : ∀ o : OptionsDesc, columnWidth (renTree π o) = renWith π id (columnWidth o)
  | ⟨caption, lineLength, minDescLen, options, belong, groups⟩ => by
    rw [renTree, columnWidth, columnWidth, maxLeft_ren H]
    cases maxLeft options 23 with
    | error f => rfl
    | ok w =>
      dsimp only [renWith]
      rw [groupsWidth_ren H groups (id w)]
      dsimp only [id]
      cases groupsWidth groups w with
      | error f => rfl
      | ok w' =>
        dsimp only [renWith, id]
        split
        · rfl
        · split <;> rfl
theorem groupsWidth_ren (H : HarmlessHelp π) : ∀ (gs : List OptionsDesc) (w : Nat), groupsWidth (renTrees π gs) w = renWith π id (groupsWidth gs w)
  | [], w => rfl
  | g :: gs, w => by
    rw [renTrees, groupsWidth, groupsWidth, columnWidth_ren H g]
    cases columnWidth g with
    | error f => rfl
    | ok w' => exact groupsWidth_ren H gs (max w w')
end

theorem ownOptions_ren (ds : List OptionDesc) (bs : List Bool) : ownOptions (ds.map (renShown π)) bs = (ownOptions ds bs).map (renShown π) := by
  induction ds generalizing bs with
  | nil => rfl
  | cons d ds ih =>
    cases bs with
    | nil => rfl
    | cons b bs =>
      rw [List.map_cons, ownOptions, ownOptions, ih]
      split <;> rfl

theorem formatOptions_ren (H : HarmlessHelp π) (width lineLength : Nat) (ds : List OptionDesc) :
    formatOptions width lineLength (ds.map (renShown π)) = renWith π (ren π) (formatOptions width lineLength ds) := by
  induction ds with
  | nil => rfl
  | cons d ds ih =>
    rw [List.map_cons, formatOptions, formatOptions, formatOne_ren H, ih]
    cases formatOne d width lineLength with
    | error f => rfl
    | ok t =>
      cases formatOptions width lineLength ds with
      | error f => rfl
      | ok ts =>
        refine congrArg Except.ok ?_
        simp [ren, (H.newline '\n').2 rfl]

mutual
theorem printWidth_ren (H : HarmlessHelp π) (width : Nat) : ∀ o : OptionsDesc, printWidth width (renTree π o) = renWith π (ren π) (printWidth width o)
  | ⟨caption, lineLength, minDescLen, options, belong, groups⟩ => by
    rw [renTree, printWidth, printWidth, ownOptions_ren, formatOptions_ren H, printGroups_ren H width groups]
    cases formatOptions width lineLength (ownOptions options belong) with
    | error f => rfl
    | ok body =>
      cases printGroups width groups with
      | error f => rfl
      | ok gs =>
        refine congrArg Except.ok ?_
        have h0 : ren π caption = [] ↔ caption = [] := by simp
        simp only [h0]
        by_cases h : caption = []
        · rw [if_pos h, if_pos h]
          simp [ren]
        · rw [if_neg h, if_neg h]
          simp [ren, H.colon, (H.newline '\n').2 rfl]
theorem printGroups_ren (H : HarmlessHelp π) (width : Nat) :
    ∀ gs : List OptionsDesc, printGroups width (renTrees π gs) = renWith π (ren π) (printGroups width gs)
  | [] => rfl
  | g :: gs => by
    rw [renTrees, printGroups, printGroups, printWidth_ren H width g, printGroups_ren H width gs]
    cases printWidth width g with
    | error f => rfl
    | ok t =>
      cases printGroups width gs with
      | error f => rfl
      | ok ts =>
        refine congrArg Except.ok ?_
        simp [ren, (H.newline '\n').2 rfl]
end

end Letters

open Letters

/-- The help in other letters is the help of the description in other letters, for every description with its groups, and every width. -/
theorem C155_help (π : Char → Char) (H : HarmlessHelp π) (o : OptionsDesc) (width : Nat) :
    (renTree π o).print width = renWith π (ren π) (o.print width) := by
  unfold OptionsDesc.print
  rw [columnWidth_ren H]
  split
  · cases columnWidth o with
    | error f => rfl
    | ok w => exact printWidth_ren H w o
  · exact printWidth_ren H width o

namespace Letters

/-- A description with one switch. -/
def oneSwitch (short name text : Str) : OptionsDesc := ⟨[], 3, 0, [⟨short, [name], text, { Test.unt with name := [] }⟩], [false], []⟩

theorem print_text (x : Char) (text t : Str) (h0 : text ≠ []) (h : formatDescription text 1 3 = .ok t) :
    (oneSwitch [] [x] text).print 1 = .ok ([' ', ' ', '-', '-', x, ' ', '\n', ' '] ++ t ++ ['\n']) := by
  simp [OptionsDesc.print, oneSwitch, printWidth, ownOptions, formatOptions, formatOne, OptionDesc.leftColumn, OptionDesc.formatName,
    OptionDesc.formatParameter, Test.unt, untypedValue, h0, h, printGroups, spaces]

def shownOne (c : Char) : Str := if c = '\n' then ['\n', ' '] else if c = '\t' then [] else [c]

theorem format_one (c : Char) : formatDescription [c] 1 3 = .ok (shownOne c) := by
  by_cases h1 : c = '\n'
  · subst h1; rfl
  by_cases h2 : c = '\t'
  · subst h2; rfl
  simp [formatDescription, splitNl, h1, formatPars, formatParagraph, paragraphLines, parIndent, findChar, h2, lineEnd, wrapRest, joinLines, shownOne]

theorem format_three (c : Char) (h1 : c ≠ '\n') (h2 : c ≠ '\t') : formatDescription ['-', c, '-'] 1 3 =
    .ok (if c = ' ' then ['-', '\n', ' ', '-'] else ['-', '\n', ' ', c, '\n', ' ', '-']) := by
  by_cases h3 : c = ' '
  · subst h3; rfl
  simp [formatDescription, splitNl, h1, formatPars, formatParagraph, paragraphLines, parIndent, findChar, h2, lineEnd, wrapRest, joinLines, dropLead, h3,
    afterLastSpace, spaces]

end Letters

/-- Which letters may be replaced: exactly the harmless ones. -/
theorem C155_help_iff (π : Char → Char) :
    (∀ (o : OptionsDesc) (width : Nat), (renTree π o).print width = renWith π (ren π) (o.print width)) ↔ HarmlessHelp π := by
  refine ⟨fun h => ?_, fun H o width => C155_help π H o width⟩
  have same : ∀ (x : Char) (text : Str), (oneSwitch [] [π x] (ren π text)).print 1 = renWith π (ren π) ((oneSwitch [] [x] text).print 1) :=
    fun x text => h (oneSwitch [] [x] text) 1
  have hfirst := h (oneSwitch ['x'] ['x'] []) 1
  rw [show renTree π (oneSwitch ['x'] ['x'] []) = oneSwitch [π 'x'] [π 'x'] [] from rfl] at hfirst
  replace hfirst : [' ', ' ', π 'x', ' ', '[', ' ', '-', '-', π 'x', ' ', ']', ' ', '\n'] =
      [π ' ', π ' ', π 'x', π ' ', π '[', π ' ', π '-', π '-', π 'x', π ' ', π ']', π ' ', π '\n'] := by
    injection hfirst
  simp only [List.cons.injEq] at hfirst
  obtain ⟨hb, -, -, -, ho, -, hd, -, -, -, hc, -, hnl, -⟩ := hfirst
  have hcap := h ⟨['x'], 3, 0, [], [], []⟩ 1
  replace hcap : [π 'x', ':', '\n'] = [π 'x', π ':', π '\n'] := by
    injection hcap
  simp only [List.cons.injEq] at hcap
  have length : ∀ (text t t' : Str), text ≠ [] → formatDescription text 1 3 = .ok t → formatDescription (ren π text) 1 3 = .ok t' → t'.length = t.length := by
    intro text t t' h0 h1 h2
    have := same 'x' text
    rw [print_text _ _ _ h0 h1, print_text _ _ _ (by simpa using h0) h2] at this
    injection this with this
    have := congrArg List.length this
    rw [List.length_map] at this
    simpa using this
  have one : ∀ c, (shownOne (π c)).length = (shownOne c).length := fun c => length [c] _ _ (by simp) (format_one c) (format_one (π c))
  have key : ∀ c, (c = '\n' ↔ (shownOne c).length = 2) ∧ (c = '\t' ↔ (shownOne c).length = 0) := by
    intro c
    unfold shownOne
    by_cases h1 : c = '\n'
    · subst h1; decide
    by_cases h2 : c = '\t'
    · subst h2; decide
    simp [h1, h2]
  have hn : ∀ c, π c = '\n' ↔ c = '\n' := by
    intro c
    rw [(key _).1, one, ← (key _).1]
  have ht : ∀ c, π c = '\t' ↔ c = '\t' := by
    intro c
    rw [(key _).2, one, ← (key _).2]
  refine ⟨fun c => ⟨fun hc' => ?_, fun hc' => by rw [hc', ← hb]⟩, hn, ht, hd.symm, ho.symm, hc.symm, hcap.2.1.symm⟩
  by_contra hne
  have n1 : c ≠ '\n' := fun e => by
    rw [(hn c).2 e] at hc'
    cases hc'
  have n2 : c ≠ '\t' := fun e => by
    rw [(ht c).2 e] at hc'
    cases hc'
  have := length ['-', c, '-'] _ _ (by simp) (format_three c n1 n2)
    (by rw [show ren π ['-', c, '-'] = ['-', ' ', '-'] by simp [ren, hc', ← hd]]; exact format_three ' ' (by decide) (by decide))
  rw [if_pos rfl, if_neg hne] at this
  cases this

/-- The help of `bar,a` with the text `a bad\tb`, with `a` and `b` swapped. -/
example : let o : OptionsDesc := ⟨Test.L "bag", 80, 40, [Test.od "bar,a" (Test.sem Test.vstr) "a bad\tb"], [false], []⟩
    HarmlessHelp swapped ∧ o.print = .ok (Test.L "bag:\n  -a [ --bar ] arg      a badb\n") ∧
    (renTree swapped o).print = .ok (Test.L "abg:\n  -b [ --abr ] brg      b abda\n") := by
  have e : ∀ x, swapped x = x → ∀ c, swapped c = x ↔ c = x := by
    intro x hx c
    constructor
    · intro h
      rw [← swapped_swapped c, h, hx]
    · rintro rfl
      exact hx
  intro o
  have H : HarmlessHelp swapped := ⟨e _ (by decide), e _ (by decide), e _ (by decide), by decide, by decide, by decide, by decide⟩
  have hp : o.print = .ok (Test.L "bag:\n  -a [ --bar ] arg      a badb\n") := rfl
  refine ⟨H, hp, ?_⟩
  rw [C155_help swapped H, hp]
  rfl

end PO
