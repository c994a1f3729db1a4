import Verif.Lemmas.ConfigReader
import Verif.Tests.Util
/-
C24-C31: configuration files.
-/
namespace PO
open Spec

namespace Ex
open Test
def cfgDesc : List OptionDesc := [od "gv1" (sem vstr), od "m1.v1" (sem vstr), od "plug*" (sem vstr), od "alias,other" (sem vstr)]
end Ex

/-! ### C24 -/

/-- Blanks, tabs and carriage returns. -/
def Blank (ws : Str) : Prop := ∀ c ∈ ws, c = ' ' ∨ c = '\t' ∨ c = '\r'

/-- One edit of a line that does not change its meaning. -/
inductive LineEdit : Str → Str → Prop
  | comment (l c) : LineEdit l (l ++ '#' :: c)
  | indent (ws l) : Blank ws → LineEdit l (ws ++ l)
  | trailing (l ws) : Blank ws → LineEdit l (l ++ ws)

/-- Insertion and removal of blank and comment-only lines, and edits of single lines, any number of
them, in either direction. -/
inductive SameContent : List Str → List Str → Prop
  | refl (a) : SameContent a a
  | symm {a b} : SameContent a b → SameContent b a
  | trans {a b c} : SameContent a b → SameContent b c → SameContent a c
  | edit (a l l' b) : LineEdit l l' → SameContent (a ++ l :: b) (a ++ l' :: b)
  | insertBlank (a ws b) : Blank ws → SameContent (a ++ b) (a ++ ws :: b)
  | insertComment (a ws c b) : Blank ws → SameContent (a ++ b) (a ++ (ws ++ '#' :: c) :: b)

theorem blank_isWs {ws : Str} (h : Blank ws) : ∀ c ∈ ws, isWs c = true := by
  intro c hc
  rcases h c hc with rfl | rfl | rfl <;> decide

theorem blank_noHash {ws : Str} (h : Blank ws) : '#' ∉ ws := by
  intro hc
  rcases h _ hc with h | h | h <;> revert h <;> decide

theorem stripLine_edit {l l' : Str} (h : LineEdit l l') : stripLine l' = stripLine l := by
  have noHash : ∀ s : Str, '#' ∉ s → s.takeWhile (· != '#') = s := by
    intro s hs
    have := takeWhile_append_hash s []
    simpa [hs] using this
  cases h with
  | comment l c =>
    rw [stripLine_eq, stripLine_eq, takeWhile_append_hash]
    split
    · rfl
    · rename_i hh; simp [noHash _ hh]
  | indent ws l hw =>
    rw [stripLine_eq, stripLine_eq, takeWhile_append_hash, if_neg (blank_noHash hw)]
    exact trimWs_left _ _ (blank_isWs hw)
  | trailing l ws hw =>
    rw [stripLine_eq, stripLine_eq, takeWhile_append_hash]
    split
    · rfl
    · rename_i hh
      rw [noHash _ (blank_noHash hw), noHash _ hh]
      exact trimWs_right _ _ (blank_isWs hw)

theorem stripLine_blank {ws : Str} (h : Blank ws) : stripLine ws = [] := by
  rw [stripLine_id _ (blank_noHash h)]
  exact trimWs_blank _ (blank_isWs h)

theorem scan_same (it : ConfigIter) {a b : List Str} (h : SameContent a b) (pre : Str) : it.scan pre a = it.scan pre b := by
  induction h generalizing pre with
  | refl => rfl
  | symm _ ih => exact (ih pre).symm
  | trans _ _ i1 i2 => exact (i1 pre).trans (i2 pre)
  | edit a l l' b he =>
    rw [scan_append, scan_append]
    have : ∀ q, it.scan q (l' :: b) = it.scan q (l :: b) := by
      intro q; rw [ConfigIter.scan, ConfigIter.scan, stripLine_edit he]
    simp only [this]
  | insertBlank a ws b hw =>
    rw [scan_append, scan_append]
    have : ∀ q, it.scan q (ws :: b) = it.scan q b := by
      intro q; rw [ConfigIter.scan, stripLine_blank hw]; rfl
    simp only [this]
  | insertComment a ws c b hw =>
    rw [scan_append, scan_append]
    have : ∀ q, it.scan q ((ws ++ '#' :: c) :: b) = it.scan q b := by
      intro q
      rw [ConfigIter.scan, stripLine_edit (LineEdit.comment ws c), stripLine_blank hw]; rfl
    simp only [this]

/-- **C24.** Two files whose lines differ only by such edits are read alike: the same options, or
the same error. -/
theorem C24_irrelevant_edits (desc : List OptionDesc) (au : Bool) (a b : List Str)
    (ha : ∀ l ∈ a, '\n' ∉ l) (hb : ∀ l ∈ b, '\n' ∉ l) (h : SameContent a b) :
    parseConfigFile (unlines a) desc au = parseConfigFile (unlines b) desc au := by
  unfold parseConfigFile
  simp only [getlines_unlines' a ha, getlines_unlines' b hb, lines_eq_scan, fun it => scan_same it h]

/-- **C24, line ends:** CRLF instead of LF. -/
theorem C24_crlf (desc : List OptionDesc) (au : Bool) (a : List Str) (ha : ∀ l ∈ a, '\n' ∉ l) :
    parseConfigFile (a.flatMap (· ++ ['\r', '\n'])) desc au = parseConfigFile (unlines a) desc au := by
  have h1 : a.flatMap (· ++ ['\r', '\n']) = unlines (a.map (· ++ ['\r'])) := by
    simp [unlines, List.flatMap_map]
  rw [h1]
  refine (C24_irrelevant_edits desc au _ _ ha ?_ ?_).symm
  · intro l hl
    obtain ⟨l0, h0, rfl⟩ := List.mem_map.1 hl
    have := ha l0 h0
    simp [this]
  · have : ∀ (pre a : List Str), SameContent (pre ++ a) (pre ++ a.map (· ++ ['\r'])) := by
      intro pre a
      induction a generalizing pre with
      | nil => exact .refl _
      | cons l a ih =>
        refine .trans (.edit pre l (l ++ ['\r']) a (.trailing _ _ ?_)) ?_
        · intro c hc; simp at hc; simp [hc]
        · have := ih (pre ++ [l ++ ['\r']])
          simpa using this
    exact this [] a

/-- **C24, last line:** the newline after the last line may be missing. -/
theorem C24_final_newline (desc : List OptionDesc) (au : Bool) (a : List Str) (last : Str)
    (ha : ∀ l ∈ a, '\n' ∉ l) (hl : '\n' ∉ last) :
    parseConfigFile (unlines a ++ last) desc au = parseConfigFile (unlines (a ++ [last])) desc au := by
  have hal : ∀ l ∈ a ++ [last], '\n' ∉ l := by
    intro l h
    rcases List.mem_append.1 h with h | h
    · exact ha l h
    · simp at h; exact h ▸ hl
  unfold parseConfigFile
  simp only [getlines_unlines a ha last hl, getlines_unlines' _ hal, lines_eq_scan]
  by_cases h0 : last = []
  · subst h0
    have : ∀ it : ConfigIter, it.scan [] (a ++ [[]]) = it.scan [] a := fun it => by
      have := scan_same it (SameContent.insertBlank a [] [] (by intro c hc; cases hc)) []
      simpa using this.symm
    simp only [this, if_true, List.append_nil]
  · simp [h0]

example : SameContent [Test.L "gv1=0", Test.L "[m1]"] [Test.L "# hello", Test.L "  gv1=0 # c", Test.L "[m1]"] ∧
    (parseConfigFile (unlines [Test.L "# hello", Test.L "  gv1=0 # c", Test.L "[m1]", Test.L "v1=7"]) Ex.cfgDesc).toOption.map
      (·.options.map fun o => (o.stringKey, o.value)) = some [(Test.L "gv1", [Test.L "0"]), (Test.L "m1.v1", [Test.L "7"])] := by
  refine ⟨.trans (.insertComment [] [] (Test.L " hello") _ (by intro c hc; cases hc)) ?_, by decide⟩
  refine .trans (.edit [Test.L "# hello"] (Test.L "gv1=0") (Test.L "  gv1=0") [Test.L "[m1]"] (.indent (Test.L "  ") (Test.L "gv1=0") (by intro c hc; revert c; decide))) ?_
  refine .trans (.edit [Test.L "# hello"] (Test.L "  gv1=0") (Test.L "  gv1=0 ") [Test.L "[m1]"] (.trailing (Test.L "  gv1=0") (Test.L " ") (by intro c hc; revert c; decide))) ?_
  exact .edit [Test.L "# hello"] (Test.L "  gv1=0 ") (Test.L "  gv1=0 # c") [Test.L "[m1]"] (.comment (Test.L "  gv1=0 ") (Test.L " c"))

/-! ### C25, C26 -/

/-- Keys and values of the result. -/
def keyed (r : Except Fail Parsed) : Option (List (Str × List Str)) :=
  match r with
  | .ok p => some (p.options.map fun o => (o.stringKey, o.value))
  | .error _ => none

theorem scan_items (it : ConfigIter) (pre : Str) (items : List (Str × Str)) (hr : ∀ i ∈ items, Representable i.1 i.2)
    (ha : ∀ i ∈ items, it.allowed (pre ++ i.1) = true ∨ it.allowUnregistered = true) :
    ∃ os, it.scan pre (items.map itemLine) = .ok (os, pre) ∧
      os.map (fun o => (o.stringKey, o.value)) = items.map fun i => (pre ++ i.1, [i.2]) := by
  induction items with
  | nil => exact ⟨[], rfl, rfl⟩
  | cons i items ih =>
    obtain ⟨os, h1, h2⟩ := ih (fun j hj => hr j (by simp [hj])) (fun j hj => ha j (by simp [hj]))
    have hl := line_item it pre (hr i (by simp))
    rw [if_neg] at hl
    · rw [List.map_cons, ConfigIter.scan]
      have hl' : it.line pre (stripLine (itemLine i)) = _ := hl
      rw [hl', h1]
      exact ⟨_, rfl, by simp [h2]⟩
    · rintro ⟨a, b⟩
      rcases ha i (by simp) with h | h
      · rw [a] at h; cases h
      · rw [b] at h; cases h

theorem scan_section (it : ConfigIter) (pre s : Str) (hs : SectionName s) (items : List (Str × Str))
    (hr : ∀ i ∈ items, Representable i.1 i.2)
    (ha : ∀ i ∈ items, it.allowed (sectionPrefix s ++ i.1) = true ∨ it.allowUnregistered = true) :
    ∃ os, it.scan pre (headerLine s :: items.map itemLine) = .ok (os, sectionPrefix s) ∧
      os.map (fun o => (o.stringKey, o.value)) = items.map fun i => (sectionPrefix s ++ i.1, [i.2]) := by
  rw [ConfigIter.scan, line_header it pre hs]
  exact scan_items it _ items hr ha

/-- The lines of a file: unsectioned items, then sections. -/
def render (plain : List (Str × Str)) (sections : List (Str × List (Str × Str))) : List Str :=
  plain.map itemLine ++ sections.flatMap fun s => headerLine s.1 :: s.2.map itemLine

/-- The names and values such a file denotes. -/
def denoted (plain : List (Str × Str)) (sections : List (Str × List (Str × Str))) : List (Str × Str) :=
  plain ++ sections.flatMap fun s => s.2.map fun i => (sectionPrefix s.1 ++ i.1, i.2)

theorem item_noNl {n v : Str} (h : Representable n v) : '\n' ∉ itemLine (n, v) := by
  simp [itemLine, h.nameNl, h.valueNl]

theorem header_noNl {s : Str} (h : SectionName s) : '\n' ∉ headerLine s := by
  simp [headerLine, h.nl]

theorem render_noNl (plain : List (Str × Str)) (sections : List (Str × List (Str × Str)))
    (hp : ∀ i ∈ plain, Representable i.1 i.2)
    (hs : ∀ s ∈ sections, SectionName s.1 ∧ ∀ i ∈ s.2, Representable i.1 i.2) :
    ∀ l ∈ render plain sections, '\n' ∉ l := by
  intro l hl
  unfold render at hl
  rcases List.mem_append.1 hl with hl | hl
  · obtain ⟨i, hi, rfl⟩ := List.mem_map.1 hl
    exact item_noNl (hp i hi)
  · obtain ⟨s, hsm, hl⟩ := List.mem_flatMap.1 hl
    rcases List.mem_cons.1 hl with rfl | hl
    · exact header_noNl (hs s hsm).1
    · obtain ⟨i, hi, rfl⟩ := List.mem_map.1 hl
      exact item_noNl ((hs s hsm).2 i hi)

/-- **C25.** Writing unsectioned items and sections and reading the file back gives exactly the
written names (with their section prefix) and values, in order, provided they are representable and
the names are accepted (or unregistered names are allowed). -/
theorem C25_round_trip (desc : List OptionDesc) (au : Bool) (hr : (keyed (parseConfigFile [] desc au)).isSome = true)
    (plain : List (Str × Str)) (sections : List (Str × List (Str × Str)))
    (hp : ∀ i ∈ plain, Representable i.1 i.2)
    (hs : ∀ s ∈ sections, SectionName s.1 ∧ ∀ i ∈ s.2, Representable i.1 i.2)
    (ha : ∀ i ∈ denoted plain sections, Accepts desc i.1 ∨ au = true) :
    keyed (parseConfigFile (unlines (render plain sections)) desc au) =
      some ((denoted plain sections).map fun i => (i.1, [i.2])) := by
  cases hp0 : parseConfigFile [] desc au with
  | error f => rw [hp0] at hr; simp [keyed] at hr
  | ok p0 =>
    obtain ⟨S, it, h1, h2, h3, h4⟩ := reader_of_empty desc au p0 hp0
    rw [parseConfigFile_eq desc au S it h1 h2, getlines_unlines' _ (render_noNl plain sections hp hs)]
    have ha' : ∀ i ∈ denoted plain sections, it.allowed i.1 = true ∨ it.allowUnregistered = true := by
      intro i hi
      rcases ha i hi with h | h
      · exact .inl ((h4 _).2 h)
      · exact .inr (h3.trans h)
    have hsec : ∀ (pre : Str) (sections : List (Str × List (Str × Str))),
        (∀ s ∈ sections, SectionName s.1 ∧ ∀ i ∈ s.2, Representable i.1 i.2) →
        (∀ i ∈ denoted [] sections, it.allowed i.1 = true ∨ it.allowUnregistered = true) →
        ∃ os q, it.scan pre (sections.flatMap fun s => headerLine s.1 :: s.2.map itemLine) = .ok (os, q) ∧
          os.map (fun o => (o.stringKey, o.value)) = (denoted [] sections).map fun i => (i.1, [i.2]) := by
      intro pre sections
      induction sections generalizing pre with
      | nil => intro _ _; exact ⟨[], pre, rfl, rfl⟩
      | cons s ss ih =>
        intro hs hd
        obtain ⟨os1, a1, a2⟩ := scan_section it pre s.1 (hs s (by simp)).1 s.2 (hs s (by simp)).2 (by
          intro i hi
          exact hd (sectionPrefix s.1 ++ i.1, i.2) (by
            simp only [denoted, List.nil_append, List.mem_flatMap, List.mem_map]
            exact ⟨s, by simp, i, hi, rfl⟩))
        obtain ⟨os2, q, b1, b2⟩ := ih (sectionPrefix s.1) (fun t ht => hs t (by simp [ht])) (by
          intro i hi
          refine hd i ?_
          simp only [denoted, List.nil_append, List.mem_flatMap] at hi ⊢
          obtain ⟨t, ht, hi⟩ := hi
          exact ⟨t, by simp [ht], hi⟩)
        rw [List.flatMap_cons, scan_append, a1]
        simp only [b1]
        refine ⟨_, _, rfl, ?_⟩
        rw [List.map_append, a2, b2]
        simp [denoted]
    obtain ⟨os1, a1, a2⟩ := scan_items it [] plain hp (by
      intro i hi; exact ha' i (by simp [denoted, hi]))
    obtain ⟨os2, q, b1, b2⟩ := hsec [] sections hs (by
      intro i hi; exact ha' i (by
        simp only [denoted, List.nil_append] at hi
        simp only [denoted, List.mem_append, hi, or_true]))
    unfold render
    rw [scan_append, a1]
    simp only [b1, keyed]
    rw [List.map_append, a2, b2]
    simp [denoted]

example : Representable (Test.L "v1") (Test.L "a = [b]") ∧ SectionName (Test.L "m1") ∧
    (keyed (parseConfigFile [] Ex.cfgDesc false)).isSome = true ∧
    (∀ i ∈ denoted [(Test.L "gv1", Test.L "x")] [(Test.L "m1", [(Test.L "v1", Test.L "a = [b]")])], Accepts Ex.cfgDesc i.1 ∨ false = true) := by
  refine ⟨⟨by decide, by decide, by decide, by decide, by decide, ?_, ?_, by decide⟩, ⟨by decide, by decide, by decide⟩, by decide, ?_⟩
  · rw [trimmed_iff]; simp [Test.L, isWs]
  · rw [trimmed_iff]; simp [Test.L, isWs]
  · have : denoted [(Test.L "gv1", Test.L "x")] [(Test.L "m1", [(Test.L "v1", Test.L "a = [b]")])] =
        [(Test.L "gv1", Test.L "x"), (Test.L "m1.v1", Test.L "a = [b]")] := by decide
    rw [this]
    intro i hi
    left
    simp only [List.mem_cons, List.not_mem_nil, or_false] at hi
    rcases hi with rfl | rfl
    · exact ⟨Test.od "gv1" (Test.sem Test.vstr), by simp [Ex.cfgDesc], .inl ⟨by decide, by decide⟩⟩
    · exact ⟨Test.od "m1.v1" (Test.sem Test.vstr), by simp [Ex.cfgDesc], .inl ⟨by decide, by decide⟩⟩

/-- **C26.** Whatever comes before: after a header `[s]`, items get the prefix `s` with exactly one
dot added (none if `s` ends with one), and the header's predecessors do not matter. -/
theorem C26_section_prefix (desc : List OptionDesc) (au : Bool) (before : List Str) (hb : ∀ l ∈ before, '\n' ∉ l)
    (bs : List (Str × List Str)) (hbs : keyed (parseConfigFile (unlines before) desc au) = some bs)
    (s : Str) (hs : SectionName s) (items : List (Str × Str)) (hr : ∀ i ∈ items, Representable i.1 i.2)
    (ha : ∀ i ∈ items, Accepts desc (sectionPrefix s ++ i.1) ∨ au = true) :
    keyed (parseConfigFile (unlines (before ++ headerLine s :: items.map itemLine)) desc au) =
      some (bs ++ items.map fun i => (sectionPrefix s ++ i.1, [i.2])) := by
  have hp0 : ∃ p0, parseConfigFile [] desc au = .ok p0 := by
    unfold parseConfigFile at hbs ⊢
    cases h1 : allowedNames desc [] with
    | error f => simp [h1, keyed] at hbs
    | ok S =>
      simp only [h1] at hbs ⊢
      cases h2 : ConfigIter.make S au with
      | error f => simp [h2, keyed] at hbs
      | ok it => exact ⟨_, rfl⟩
  obtain ⟨p0, hp0⟩ := hp0
  obtain ⟨S, it, h1, h2, h3, h4⟩ := reader_of_empty desc au p0 hp0
  have hall : ∀ l ∈ before ++ headerLine s :: items.map itemLine, '\n' ∉ l := by
    intro l hl
    rcases List.mem_append.1 hl with hl | hl
    · exact hb l hl
    · rcases List.mem_cons.1 hl with rfl | hl
      · exact header_noNl hs
      · obtain ⟨i, hi, rfl⟩ := List.mem_map.1 hl
        exact item_noNl (hr i hi)
  rw [parseConfigFile_eq desc au S it h1 h2, getlines_unlines' _ hb] at hbs
  rw [parseConfigFile_eq desc au S it h1 h2, getlines_unlines' _ hall, scan_append]
  cases hsc : it.scan [] before with
  | error f => simp [hsc, keyed] at hbs
  | ok r =>
    obtain ⟨os, q⟩ := r
    simp only [hsc, keyed, Option.some.injEq] at hbs
    obtain ⟨os2, a1, a2⟩ := scan_section it q s hs items hr (by
      intro i hi
      rcases ha i hi with h | h
      · exact .inl ((h4 _).2 h)
      · exact .inr (h3.trans h))
    simp only [a1, keyed]
    rw [List.map_append, a2, hbs]

/-- **C26, before the first header** there is no prefix. -/
theorem C26_no_section (desc : List OptionDesc) (au : Bool) (hr0 : (keyed (parseConfigFile [] desc au)).isSome = true)
    (items : List (Str × Str)) (hr : ∀ i ∈ items, Representable i.1 i.2)
    (ha : ∀ i ∈ items, Accepts desc i.1 ∨ au = true) :
    keyed (parseConfigFile (unlines (items.map itemLine)) desc au) = some (items.map fun i => (i.1, [i.2])) := by
  have := C25_round_trip desc au hr0 items [] hr (by simp) (by simpa [denoted] using ha)
  simpa [render, denoted] using this

example : keyed (parseConfigFile (unlines [Test.L "[a.]", Test.L "x=1", Test.L "[m1]", Test.L "v1=2"]) Ex.cfgDesc true) =
    some [(Test.L "a.x", [Test.L "1"]), (Test.L "m1.v1", [Test.L "2"])] := by decide

/-! ### C27 -/

/-- The full claim. -/
def C27_claim : Prop := ∀ (text : Str) (desc : List OptionDesc) (au : Bool) (u : UB),
  parseConfigFile text desc au ≠ .error (.ub u)

def parseErr (r : Except Fail Parsed) : Option Fail :=
  match r with
  | .ok _ => none
  | .error f => some f

/-- **C27 is false in the code**: the line `[]` dereferences `rbegin()` of an empty string. -/
theorem C27_negation : ¬ C27_claim := by
  intro h
  apply h (Test.L "[]") [] false .emptySection
  rfl

theorem no_ub (text : Str) (desc : List OptionDesc) (au : Bool)
    (h : ∀ l ∈ getlines '\n' text, stripLine l ≠ str% "[]") (u : UB) :
    parseConfigFile text desc au ≠ .error (.ub u) ∧ parseConfigFile text desc au ≠ .error .fuel := by
  by_cases hne : ∀ d ∈ desc, d.firstLong ≠ []
  · rcases reader_spec desc au hne with ⟨S, it, a, b, _⟩ | ⟨S, s, y, x, a, b, _⟩
    · rw [parseConfigFile_eq desc au S it a b]
      have key : ∀ (ls : List Str) (pre : Str), (∀ l ∈ ls, stripLine l ≠ str% "[]") →
          it.scan pre ls ≠ .error (.ub u) ∧ it.scan pre ls ≠ .error .fuel := by
        intro ls
        induction ls with
        | nil => intro pre _; simp [ConfigIter.scan]
        | cons l ls ih =>
          intro pre hl
          have hline : it.line pre (stripLine l) ≠ .error (.ub u) ∧ it.line pre (stripLine l) ≠ .error .fuel := by
            have hb := hl l (by simp)
            generalize stripLine l = s at hb
            unfold ConfigIter.line
            split
            · simp
            · split
              · rename_i h0 h1
                simp only
                split
                · rename_i hn
                  exfalso
                  rw [List.getLast?_eq_none_iff] at hn
                  apply hb
                  cases s with
                  | nil => simp at h0
                  | cons c s =>
                    simp only [List.head?_cons, Option.some.injEq] at h1
                    obtain ⟨rfl, h1⟩ := h1
                    cases s with
                    | nil => simp at h1
                    | cons c2 s =>
                      cases s with
                      | nil => simp at h1; simp [h1]
                      | cons c3 s => simp [substr] at hn
                · simp
                · simp
              · split
                · simp only
                  split
                  · simp [errUnknown]
                  · simp
                · simp [errConfigSyntax]
          rw [ConfigIter.scan]
          have i := fun q => ih q fun x hx => hl x (by simp [hx])
          cases hq : it.line pre (stripLine l) with
          | error f =>
            rw [hq] at hline
            simp only
            exact ⟨fun he => hline.1 (by injection he with he; rw [he]), fun he => hline.2 (by injection he with he; rw [he])⟩
          | ok r =>
            cases r with
            | skip => exact i pre
            | section_ p => exact i p
            | option o =>
              simp only
              have ip := i pre
              cases hsc : it.scan pre ls with
              | error f =>
                rw [hsc] at ip
                exact ⟨fun he => ip.1 (by injection he with he; rw [he]), fun he => ip.2 (by injection he with he; rw [he])⟩
              | ok r => simp
      have hk := key _ [] h
      cases hsc : it.scan [] (getlines '\n' text) with
      | error f =>
        rw [hsc] at hk
        exact ⟨fun he => hk.1 (by injection he with he; rw [he]), fun he => hk.2 (by injection he with he; rw [he])⟩
      | ok r => simp
    · unfold parseConfigFile; simp [a, b]
  · have : ∃ d ∈ desc, d.firstLong = [] := by
      apply Classical.byContradiction
      intro hc
      exact hne fun d hd he => hc ⟨d, hd, he⟩
    unfold parseConfigFile
    simp [allowedNames_error desc [] this]

/-! ### C28 -/

/-- **C28.** Without unregistered options, everything that is read is accepted and flagged registered. -/
theorem C28_all_accepted (text : Str) (desc : List OptionDesc) (p : Parsed) (h : parseConfigFile text desc false = .ok p) :
    ∀ o ∈ p.options, Accepts desc o.stringKey ∧ o.unregistered = false := by
  have hp0 : ∃ p0, parseConfigFile [] desc false = .ok p0 := by
    unfold parseConfigFile at h ⊢
    cases h1 : allowedNames desc [] with
    | error f => simp [h1] at h
    | ok S =>
      simp only [h1] at h ⊢
      cases h2 : ConfigIter.make S false with
      | error f => simp [h2] at h
      | ok it => exact ⟨_, rfl⟩
  obtain ⟨p0, hp0⟩ := hp0
  obtain ⟨S, it, h1, h2, h3, h4⟩ := reader_of_empty desc false p0 hp0
  rw [parseConfigFile_eq desc false S it h1 h2] at h
  have hline : ∀ pre s o, it.line pre s = .ok (.option o) → it.allowed o.stringKey = true ∧ o.unregistered = false := by
    intro pre s o hl
    unfold ConfigIter.line at hl
    split at hl
    · simp at hl
    · split at hl
      · simp only at hl
        split at hl <;> simp at hl
      · split at hl
        · simp only [h3, Bool.not_false, Bool.and_true] at hl
          split at hl
          · simp at hl
          · rename_i hc
            simp only [Except.ok.injEq, LineResult.option.injEq] at hl
            subst hl
            simpa using hc
        · simp at hl
  have key : ∀ (ls : List Str) (pre : Str) (r : List Opt × Str), it.scan pre ls = .ok r →
      ∀ o ∈ r.1, it.allowed o.stringKey = true ∧ o.unregistered = false := by
    intro ls
    induction ls with
    | nil => intro pre r hr; simp only [ConfigIter.scan, Except.ok.injEq] at hr; subst hr; simp
    | cons l ls ih =>
      intro pre r hr
      rw [ConfigIter.scan] at hr
      cases hq : it.line pre (stripLine l) with
      | error f => simp [hq] at hr
      | ok x =>
        rw [hq] at hr
        cases x with
        | skip => exact ih pre r hr
        | section_ p => exact ih p r hr
        | option o =>
          simp only at hr
          cases hsc : it.scan pre ls with
          | error f => simp [hsc] at hr
          | ok r' =>
            simp only [hsc, Except.ok.injEq] at hr
            subst hr
            intro o' ho'
            rcases List.mem_cons.1 ho' with rfl | ho'
            · exact hline _ _ _ hq
            · exact ih pre r' hsc o' ho'
  cases hsc : it.scan [] (getlines '\n' text) with
  | error f => simp [hsc] at h
  | ok r =>
    simp only [hsc, Except.ok.injEq] at h
    subst h
    intro o ho
    obtain ⟨a, b⟩ := key _ _ _ hsc o ho
    exact ⟨(h4 _).1 a, b⟩

theorem make_flag (S : SSet) (au : Bool) (it : ConfigIter) (h : ConfigIter.make S au = .ok it) (au' : Bool) :
    ConfigIter.make S au' = .ok { it with allowUnregistered := au' } := by
  unfold ConfigIter.make at h ⊢
  cases h1 : addOptions [] S with
  | error f => simp [h1] at h
  | ok ps => simp only [h1, Except.ok.injEq] at h ⊢; subst h; rfl

/-- **C28, decision per line.** Let `before` be lines that are read without error, and `l` a line
that adds the option `o` when unregistered names are allowed. Then `o` is flagged unregistered iff
its name is not accepted; and without unregistered options, `l` adds the option if the name is
accepted, while otherwise the file is refused with `unknown option` for that name, whatever follows. -/
theorem C28_acceptance (desc : List OptionDesc) (before after : List Str) (l : Str)
    (hb : ∀ x ∈ before, '\n' ∉ x) (hl : '\n' ∉ l) (haf : ∀ x ∈ after, '\n' ∉ x) (p p' : Parsed) (o : Opt)
    (h1 : parseConfigFile (unlines before) desc false = .ok p)
    (h2 : parseConfigFile (unlines (before ++ [l])) desc true = .ok p')
    (h3 : p'.options = p.options ++ [o]) :
    (o.unregistered = true ↔ ¬ Accepts desc o.stringKey) ∧
    (Accepts desc o.stringKey → keyed (parseConfigFile (unlines (before ++ [l])) desc false) =
        some (p'.options.map fun o => (o.stringKey, o.value))) ∧
    (¬ Accepts desc o.stringKey →
      parseConfigFile (unlines (before ++ l :: after)) desc false = .error (about .unknownOption [] o.stringKey 0)) := by
  have hp0 : ∃ p0, parseConfigFile [] desc false = .ok p0 := by
    unfold parseConfigFile at h1 ⊢
    cases g1 : allowedNames desc [] with
    | error f => simp [g1] at h1
    | ok S =>
      simp only [g1] at h1 ⊢
      cases g2 : ConfigIter.make S false with
      | error f => simp [g2] at h1
      | ok it => exact ⟨_, rfl⟩
  obtain ⟨p0, hp0⟩ := hp0
  obtain ⟨S, it, r1, r2, r3, r4⟩ := reader_of_empty desc false p0 hp0
  have r2' := make_flag S false it r2 true
  have hbl : ∀ x ∈ before ++ [l], '\n' ∉ x := by
    intro x hx
    rcases List.mem_append.1 hx with hx | hx
    · exact hb x hx
    · simp at hx; exact hx ▸ hl
  have hbla : ∀ x ∈ before ++ l :: after, '\n' ∉ x := by
    intro x hx
    rcases List.mem_append.1 hx with hx | hx
    · exact hb x hx
    · rcases List.mem_cons.1 hx with rfl | hx
      · exact hl
      · exact haf x hx
  rw [parseConfigFile_eq desc false S it r1 r2, getlines_unlines' _ hb] at h1
  rw [parseConfigFile_eq desc true S _ r1 r2', getlines_unlines' _ hbl] at h2
  rw [parseConfigFile_eq desc false S it r1 r2, getlines_unlines' _ hbl]
  rw [parseConfigFile_eq desc false S it r1 r2, getlines_unlines' _ hbla]
  -- a strict read that succeeds is also a lenient read
  have mono : ∀ (ls : List Str) (pre : Str) (r : List Opt × Str), it.scan pre ls = .ok r →
      ({ it with allowUnregistered := true } : ConfigIter).scan pre ls = .ok r := by
    intro ls
    induction ls with
    | nil => intro pre r hr; exact hr
    | cons x ls ih =>
      intro pre r hr
      rw [ConfigIter.scan] at hr ⊢
      have hline : ∀ y, it.line pre (stripLine x) = .ok y → ({ it with allowUnregistered := true } : ConfigIter).line pre (stripLine x) = .ok y := by
        intro y hy
        unfold ConfigIter.line at hy ⊢
        split
        · rename_i h0; rw [if_pos h0] at hy; exact hy
        · rename_i h0
          rw [if_neg h0] at hy
          split
          · rename_i h1; rw [if_pos h1] at hy; exact hy
          · rename_i h1
            rw [if_neg h1] at hy
            split
            · rename_i n hn
              simp only [hn, r3, Bool.not_false, Bool.and_true] at hy
              simp only [Bool.not_true, Bool.and_false, Bool.false_eq_true, if_false]
              split at hy
              · simp at hy
              · exact hy
            · rename_i hn; simp only [hn] at hy; exact hy
      cases hq : it.line pre (stripLine x) with
      | error f => simp [hq] at hr
      | ok y =>
        rw [hline y hq]
        rw [hq] at hr
        cases y with
        | skip => exact ih pre r hr
        | section_ p => exact ih p r hr
        | option o =>
          simp only at hr ⊢
          cases hsc : it.scan pre ls with
          | error f => simp [hsc] at hr
          | ok r' =>
            rw [hsc] at hr
            rw [ih pre r' hsc]
            exact hr
  cases hsc : it.scan [] before with
  | error f => simp [hsc] at h1
  | ok r =>
    obtain ⟨os, q⟩ := r
    simp only [hsc, Except.ok.injEq] at h1
    subst h1
    rw [scan_append, mono _ _ _ hsc] at h2
    rw [scan_append, scan_append, hsc]
    simp only at h2 h3 ⊢
    -- the line itself
    have hstep : ({ it with allowUnregistered := true } : ConfigIter).line q (stripLine l) = .ok (.option o) := by
      rw [ConfigIter.scan] at h2
      cases hq : ({ it with allowUnregistered := true } : ConfigIter).line q (stripLine l) with
      | error f => simp [hq] at h2
      | ok y =>
        rw [hq] at h2
        cases y with
        | skip => simp only [ConfigIter.scan, Except.ok.injEq] at h2; subst h2; simp at h3
        | section_ p => simp only [ConfigIter.scan, Except.ok.injEq] at h2; subst h2; simp at h3
        | option o' =>
          simp only [ConfigIter.scan, Except.ok.injEq] at h2
          subst h2
          simp only [List.append_cancel_left_eq, List.cons.injEq, and_true] at h3
          rw [h3]
    have hstrict : o.unregistered = !it.allowed o.stringKey ∧
        it.line q (stripLine l) = if it.allowed o.stringKey then .ok (.option o) else .error (errUnknown o.stringKey) := by
      unfold ConfigIter.line at hstep ⊢
      split at hstep
      · simp at hstep
      · rename_i h0
        rw [if_neg h0]
        split at hstep
        · simp only at hstep
          split at hstep <;> simp at hstep
        · rename_i hbr
          rw [if_neg hbr]
          cases hn : findChar (stripLine l) '=' with
          | none => simp [hn] at hstep
          | some n =>
            simp only [hn, Bool.not_true, Bool.and_false, Bool.false_eq_true, if_false, Except.ok.injEq,
              LineResult.option.injEq] at hstep
            have hal : ∀ s, ({ it with allowUnregistered := true } : ConfigIter).allowed s = it.allowed s := fun _ => rfl
            simp only [hal] at hstep
            subst hstep
            simp only [r3, Bool.not_false, Bool.and_true]
            refine ⟨trivial, ?_⟩
            cases it.allowed (q ++ trimWs (List.take n (stripLine l))) <;> rfl
    have hacc : it.allowed o.stringKey = true ↔ Accepts desc o.stringKey := r4 _
    refine ⟨?_, ?_, ?_⟩
    · rw [hstrict.1, ← hacc]; simp
    · intro ha
      have h2' := h2
      rw [ConfigIter.scan, hstep] at h2'
      simp only [ConfigIter.scan, Except.ok.injEq] at h2'
      rw [ConfigIter.scan, hstrict.2, if_pos (hacc.2 ha)]
      subst h2'
      simp [ConfigIter.scan, keyed]
    · intro ha
      rw [ConfigIter.scan, hstrict.2, if_neg (fun h => ha (hacc.1 h))]
      rfl

/-- **C28 on a one-line file**, spelled out. -/
theorem C28_single (desc : List OptionDesc) (hr : (keyed (parseConfigFile [] desc false)).isSome = true) (n v : Str)
    (h : Representable n v) :
    (Accepts desc n → keyed (parseConfigFile (unlines [itemLine (n, v)]) desc false) = some [(n, [v])]) ∧
    (¬ Accepts desc n → parseConfigFile (unlines [itemLine (n, v)]) desc false = .error (about .unknownOption [] n 0)) := by
  cases hp0 : parseConfigFile [] desc false with
  | error f => rw [hp0] at hr; simp [keyed] at hr
  | ok p0 =>
    obtain ⟨S, it, r1, r2, r3, r4⟩ := reader_of_empty desc false p0 hp0
    rw [parseConfigFile_eq desc false S it r1 r2, getlines_unlines' _ (by simpa using item_noNl h)]
    rw [ConfigIter.scan, line_item it [] h, ← r4, r3]
    simp only [List.nil_append, and_true]
    constructor
    · intro ha
      rw [if_neg (by rw [ha]; simp)]
      rfl
    · intro ha
      rw [if_pos (by simpa using ha)]
      rfl

example : Accepts Ex.cfgDesc (Test.L "plugin") ∧ ¬ Accepts Ex.cfgDesc (Test.L "plug") ∧
    (keyed (parseConfigFile [] Ex.cfgDesc false)).isSome = true ∧
    parseErr (parseConfigFile (unlines [Test.L "gv1=1", Test.L "plug=2", Test.L "zz"]) Ex.cfgDesc false) =
      some (errUnknown (Test.L "plug")) := by
  refine ⟨⟨Test.od "plug*" (Test.sem Test.vstr), by simp [Ex.cfgDesc], .inr ⟨Test.L "plug", by decide, by decide, by decide⟩⟩,
    ?_, by decide, by decide⟩
  rintro ⟨d, hd, h⟩
  simp only [Ex.cfgDesc, List.mem_cons, List.not_mem_nil, or_false] at hd
  rcases hd with rfl | rfl | rfl | rfl
  · rcases h with ⟨h, _⟩ | ⟨stem, h, _⟩
    · revert h; decide
    · have := congrArg List.getLast? h; rw [List.getLast?_concat] at this; revert this; decide
  · rcases h with ⟨h, _⟩ | ⟨stem, h, _⟩
    · revert h; decide
    · have := congrArg List.getLast? h; rw [List.getLast?_concat] at this; revert this; decide
  · rcases h with ⟨h, _⟩ | ⟨stem, h, h2, h3⟩
    · revert h; decide
    · have h' : Test.L "plug" ++ ['*'] = stem ++ ['*'] := (show Test.L "plug" ++ ['*'] = (Test.od "plug*" (Test.sem Test.vstr)).firstLong by decide).trans h
      exact h3 (List.append_cancel_right h').symm
  · rcases h with ⟨h, _⟩ | ⟨stem, h, _⟩
    · revert h; decide
    · have := congrArg List.getLast? h; rw [List.getLast?_concat] at this; revert this; decide

/-! ### C29 -/

/-- **C29.** For options that all have a long name, a reader (here: for the empty file) is refused iff two
different declared wildcard names overlap; the refusal comes before anything of the file is looked at. -/
theorem C29_overlap (desc : List OptionDesc) (au : Bool) (hne : ∀ d ∈ desc, d.firstLong ≠ []) :
    ((∃ f, parseConfigFile [] desc au = .error f) ↔ Overlap desc) ∧
    (Overlap desc → ∃ msg, ∀ text, parseConfigFile text desc au = .error (.error msg)) := by
  rcases reader_spec desc au hne with ⟨S, it, a, b, _, _, hno⟩ | ⟨S, s, y, x, a, b, ⟨d1, hd1, e1⟩, _, ⟨d3, hd3, e3⟩, _, hxs, hov⟩
  · have : ¬ ∃ f, parseConfigFile [] desc au = .error f := by
      rintro ⟨f, hf⟩
      rw [parseConfigFile_eq desc au S it a b] at hf
      simp [getlines, getlinesAux, ConfigIter.scan] at hf
    exact ⟨⟨fun h => absurd h this, fun h => absurd h hno⟩, fun h => absurd h hno⟩
  · have hovl : Overlap desc := by
      rcases hov with h | h
      · exact ⟨d3, hd3, d1, hd1, x, s, e3, e1, hxs, h⟩
      · exact ⟨d1, hd1, d3, hd3, s, x, e1, e3, Ne.symm hxs, h⟩
    have herr : ∀ text, parseConfigFile text desc au = .error (.error (overlapMsg (s ++ ['*']) y)) := by
      intro text; unfold parseConfigFile; simp [a, b]
    exact ⟨⟨fun _ => hovl, fun _ => ⟨_, herr _⟩⟩, fun _ => ⟨_, herr⟩⟩

def Ex.wild : List OptionDesc := [Test.od "a*" Test.unt, Test.od "0*" Test.unt, Test.od "a!*" Test.unt]

example : (∀ d ∈ Ex.wild, d.firstLong ≠ []) ∧ Overlap Ex.wild := by
  refine ⟨?_, Test.od "a*" Test.unt, by simp [Ex.wild], Test.od "a!*" Test.unt, by simp [Ex.wild], Test.L "a", Test.L "a!", by decide, by decide, by decide, by decide⟩
  intro d hd
  simp only [Ex.wild, List.mem_cons, List.not_mem_nil, or_false] at hd
  rcases hd with rfl | rfl | rfl <;> decide

/-! ### C30 -/

/-- The full claim: the two names in an overlap error overlap. -/
def C30_claim : Prop := ∀ (desc : List OptionDesc) (au : Bool) (s y : Str),
  parseErr (parseConfigFile [] desc au) = some (.error (overlapText (s ++ ['*']) y)) → s <+: y ∨ y <+: s

/-- **C30 is false in the code.** With `0*`, `a!*` and `a*` the message blames `a*` and `0*`: the
neighbour named in the message is the predecessor even when the successor is in conflict. -/
theorem C30_negation : ¬ C30_claim := by
  intro h
  have := h Ex.wild false (Test.L "a") (Test.L "0") (by decide)
  revert this; decide

/-- **C30, part that holds:** the first name in the message really overlaps some declared wildcard,
the second is a declared wildcard too; with at most two wildcards they are the overlapping ones.
Missing: the second name in general (see `C30_negation`). -/
theorem C30_overlap_message_partial (desc : List OptionDesc) (au : Bool) (hne : ∀ d ∈ desc, d.firstLong ≠ [])
    (f : Fail) (h : parseConfigFile [] desc au = .error f) :
    ∃ s y, f = .error (overlapText (s ++ ['*']) y) ∧ (∃ d ∈ desc, d.firstLong = s ++ ['*']) ∧
      (∃ d ∈ desc, d.firstLong = y ++ ['*']) ∧ y ≠ s ∧
      (∃ x, (∃ d ∈ desc, d.firstLong = x ++ ['*']) ∧ x ≠ s ∧ (x <+: s ∨ s <+: x) ∧
        ((∀ z, (∃ d ∈ desc, d.firstLong = z ++ ['*']) → z = s ∨ z = x) → y = x)) := by
  rcases reader_spec desc au hne with ⟨S, it, a, b, _⟩ | ⟨S, s, y, x, a, b, h1, h2, h3, h4, h5, h6⟩
  · rw [parseConfigFile_eq desc au S it a b] at h
    simp [getlines, getlinesAux, ConfigIter.scan] at h
  · unfold parseConfigFile at h
    simp only [a, b, Except.error.injEq] at h
    refine ⟨s, y, h.symm, h1, h2, h4, x, h3, h5, h6, ?_⟩
    intro hall
    rcases hall y h2 with e | e
    · exact absurd e h4
    · exact e

example : parseErr (parseConfigFile [] [Test.od "ab*" Test.unt, Test.od "a*" Test.unt] false) =
    some (.error (overlapMsg (Test.L "ab*") (Test.L "a"))) ∨
    parseErr (parseConfigFile [] [Test.od "ab*" Test.unt, Test.od "a*" Test.unt] false) =
    some (.error (overlapMsg (Test.L "a*") (Test.L "ab"))) := by decide

/-! ### C31 -/

/-- The full claim: every declared long name (without wildcard) is accepted. -/
def C31_claim : Prop := ∀ (desc : List OptionDesc), (keyed (parseConfigFile [] desc false)).isSome = true →
  ∀ d ∈ desc, ∀ n ∈ d.longNames, '*' ∉ n → ∀ v, Representable n v →
  (keyed (parseConfigFile (unlines [itemLine (n, v)]) desc false)).isSome = true

/-- **C31 is false in the code**: of `alias,other` only `alias` is accepted. -/
theorem C31_negation : ¬ C31_claim := by
  intro h
  have := h Ex.cfgDesc (by decide) (Test.od "alias,other" (Test.sem Test.vstr)) (by simp [Ex.cfgDesc]) (Test.L "other") (by decide)
    (by decide) (Test.L "1") ⟨by decide, by decide, by decide, by decide, by decide, by rw [trimmed_iff]; simp [Test.L, isWs],
      by rw [trimmed_iff]; simp [Test.L, isWs], by decide⟩
  revert this; decide

/-- **C31, part that holds:** the first long name of every option is accepted (and with a wildcard
name `stem*`, every proper extension of the stem). Missing: the aliases (see `C31_negation`). -/
theorem C31_first_name_partial (desc : List OptionDesc) (hr : (keyed (parseConfigFile [] desc false)).isSome = true)
    (d : OptionDesc) (hd : d ∈ desc) (n : Str) (ns : List Str) (hn : d.longNames = n :: ns) (v : Str) (h : Representable n v) :
    keyed (parseConfigFile (unlines [itemLine (n, v)]) desc false) = some [(n, [v])] := by
  refine (C28_single desc hr n v h).1 ⟨d, hd, ?_⟩
  have hl : d.firstLong = n := by simp [OptionDesc.firstLong, hn]
  by_cases hw : n.getLast? = some '*'
  · rw [List.getLast?_eq_some_iff] at hw
    obtain ⟨stem, rfl⟩ := hw
    exact .inr ⟨stem, hl, List.prefix_append _ _, by simp⟩
  · exact .inl ⟨hl, hw⟩

example : keyed (parseConfigFile (unlines [itemLine (Test.L "alias", Test.L "1")]) Ex.cfgDesc false) =
    some [(Test.L "alias", [Test.L "1"])] := by decide

end PO
