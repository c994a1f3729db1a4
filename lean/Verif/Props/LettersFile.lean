import Verif.Spec.LettersFile
import Verif.Props.Letters
import Verif.Lemmas.ConfigReader
/-
C153: to the readers of configuration files and of the environment no letter is special.
-/
namespace PO
open Spec

namespace Letters

variable {π : Char → Char}

theorem firstLong_ren (d : OptionDesc) : (renOption π d).firstLong = ren π d.firstLong := by
  unfold OptionDesc.firstLong renOption
  dsimp only
  cases d.longNames <;> rfl

theorem prefix_ren_iff (hi : ∀ a b, π a = π b → a = b) (p s : Str) : ren π p <+: ren π s ↔ p <+: s := by
  have h := isPrefixOf_ren hi p s
  rw [Bool.eq_iff_iff, List.isPrefixOf_iff_prefix, List.isPrefixOf_iff_prefix] at h
  exact h

/-- A name in other letters that ends with a star comes from such a name. -/
theorem stem_ren (hi : ∀ a b, π a = π b → a = b) (hs : π '*' = '*') {n stem : Str} (h : ren π n = stem ++ ['*']) :
    ∃ s, n = s ++ ['*'] ∧ stem = ren π s := by
  obtain ⟨l₁, l₂, h1, h2, h3⟩ := List.map_eq_append_iff.1 h
  obtain ⟨x, r, h4, h5, h6⟩ := List.map_eq_cons_iff.1 h3
  rw [List.map_eq_nil_iff] at h6
  have hx : x = '*' := hi x '*' (by rw [h5, hs])
  exact ⟨l₁, by rw [h1, h4, h6, hx], h2.symm⟩

theorem accepts_ren (hi : ∀ a b, π a = π b → a = b) (hs : π '*' = '*') (desc : List OptionDesc) (n : Str) :
    Accepts (desc.map (renOption π)) (ren π n) ↔ Accepts desc n := by
  unfold Accepts
  constructor
  · rintro ⟨d', hd', h⟩
    obtain ⟨d, hd, rfl⟩ := List.mem_map.1 hd'
    rw [firstLong_ren, ren_eq_iff hi, ne_eq, last_iff hi hs] at h
    refine ⟨d, hd, h.imp id ?_⟩
    rintro ⟨stem, h1, h2, h3⟩
    obtain ⟨s, h4, rfl⟩ := stem_ren hi hs h1
    exact ⟨s, h4, (prefix_ren_iff hi s n).1 h2, fun e => h3 (by rw [e])⟩
  · rintro ⟨d, hd, h⟩
    refine ⟨renOption π d, List.mem_map_of_mem hd, ?_⟩
    rw [firstLong_ren, ren_eq_iff hi, ne_eq, last_iff hi hs]
    refine h.imp id ?_
    rintro ⟨s, h1, h2, h3⟩
    refine ⟨ren π s, ?_, (prefix_ren_iff hi s n).2 h2, fun e => h3 (ren_inj hi e)⟩
    rw [h1, ren, List.map_append, List.map_singleton, hs]

theorem overlap_ren (hi : ∀ a b, π a = π b → a = b) (hs : π '*' = '*') (desc : List OptionDesc) :
    Overlap (desc.map (renOption π)) ↔ Overlap desc := by
  unfold Overlap
  constructor
  · rintro ⟨d1', hd1', d2', hd2', s1, s2, h1, h2, h3, h4⟩
    obtain ⟨d1, hd1, rfl⟩ := List.mem_map.1 hd1'
    obtain ⟨d2, hd2, rfl⟩ := List.mem_map.1 hd2'
    rw [firstLong_ren] at h1 h2
    obtain ⟨t1, e1, rfl⟩ := stem_ren hi hs h1
    obtain ⟨t2, e2, rfl⟩ := stem_ren hi hs h2
    exact ⟨d1, hd1, d2, hd2, t1, t2, e1, e2, fun e => h3 (by rw [e]), (prefix_ren_iff hi _ _).1 h4⟩
  · rintro ⟨d1, hd1, d2, hd2, s1, s2, h1, h2, h3, h4⟩
    refine ⟨renOption π d1, List.mem_map_of_mem hd1, renOption π d2, List.mem_map_of_mem hd2, ren π s1, ren π s2, ?_, ?_,
      fun e => h3 (ren_inj hi e), (prefix_ren_iff hi _ _).2 h4⟩
    · rw [firstLong_ren, h1, ren, List.map_append, List.map_singleton, hs]
    · rw [firstLong_ren, h2, ren, List.map_append, List.map_singleton, hs]

theorem isWs_ren (H : HarmlessFile π) (a : Char) : isWs (π a) = isWs a := by
  rw [Bool.eq_iff_iff]
  unfold isWs
  simp only [Bool.or_eq_true, beq_iff_eq, char_iff H.inj H.newline, or_assoc]
  have := H.blanks a
  constructor
  · rintro (h | h | h | h)
    · rcases this.1 (.inl h) with h | h | h <;> simp [h]
    · rcases this.1 (.inr (.inl h)) with h | h | h <;> simp [h]
    · rcases this.1 (.inr (.inr h)) with h | h | h <;> simp [h]
    · exact .inr (.inr (.inr h))
  · rintro (h | h | h | h)
    · rcases this.2 (.inl h) with h | h | h <;> simp [h]
    · rcases this.2 (.inr (.inl h)) with h | h | h <;> simp [h]
    · rcases this.2 (.inr (.inr h)) with h | h | h <;> simp [h]
    · exact .inr (.inr (.inr h))

theorem dropWhile_ren (H : HarmlessFile π) (s : Str) : (ren π s).dropWhile isWs = ren π (s.dropWhile isWs) := by
  induction s with
  | nil => rfl
  | cons a s ih =>
    show (π a :: ren π s).dropWhile isWs = _
    rw [List.dropWhile_cons, List.dropWhile_cons, isWs_ren H, ih]
    split <;> rfl

theorem trimWs_ren (H : HarmlessFile π) (s : Str) : trimWs (ren π s) = ren π (trimWs s) := by
  unfold trimWs
  rw [dropWhile_ren H, show (ren π (s.dropWhile isWs)).reverse = ren π (s.dropWhile isWs).reverse from List.map_reverse.symm, dropWhile_ren H]
  exact List.map_reverse.symm

theorem stripLine_ren (H : HarmlessFile π) (s : Str) : stripLine (ren π s) = ren π (stripLine s) := by
  unfold stripLine
  rw [findChar_ren H.inj H.hash]
  cases findChar s '#' with
  | none => exact trimWs_ren H s
  | some n =>
    dsimp only
    rw [show (ren π s).take n = ren π (s.take n) from List.map_take.symm]
    exact trimWs_ren H _

theorem getlines_ren (H : HarmlessFile π) (s : Str) : getlines '\n' (ren π s) = (getlines '\n' s).map (ren π) := by
  have aux : ∀ (s cur : Str), getlinesAux '\n' (ren π s) (ren π cur) = (getlinesAux '\n' s cur).map (ren π) := by
    intro s
    induction s with
    | nil =>
      intro cur
      show getlinesAux '\n' [] (ren π cur) = _
      rw [getlinesAux, getlinesAux]
      simp only [ren_eq_nil]
      split <;> rfl
    | cons a s ih =>
      intro cur
      show getlinesAux '\n' (π a :: ren π s) (ren π cur) = _
      rw [getlinesAux, getlinesAux]
      simp only [char_iff H.inj H.newline]
      split
      · rw [List.map_cons, ← ih]
        rfl
      · rw [← ih]
        congr 1
        simp [ren]
  exact aux s []

def renLine (π : Char → Char) : LineResult → LineResult
  | .skip => .skip
  | .section_ p => .section_ (ren π p)
  | .option o => .option (renOpt π o)

theorem unknown_ren (n : Str) : errUnknown (ren π n) = renFail π (errUnknown n) := by
  unfold errUnknown OptErr.mk' renFail
  dsimp only
  rw [show ([] : SMap Str) = renSubst π [] from rfl, ← set_ren, ← set_ren]
  rfl

theorem configSyntax_ren (n : Str) (k : SyntaxKind) : errConfigSyntax (ren π n) k = renFail π (errConfigSyntax n k) := by
  unfold errConfigSyntax OptErr.mk' renFail OptErr.setSubst
  dsimp only
  rw [← set_ren, ← set_ren, ← set_ren]
  rfl

variable {it it' : ConfigIter}

theorem line_ren (H : HarmlessFile π) (hu : it'.allowUnregistered = it.allowUnregistered) (ha : ∀ n, it'.allowed (ren π n) = it.allowed n)
    (pre s : Str) : it'.line (ren π pre) (ren π s) = renWith π (renLine π) (it.line pre s) := by
  unfold ConfigIter.line
  have hh : (ren π s).head? = some '[' ↔ s.head? = some '[' := by
    have := get_iff H.inj H.opening s 0
    rwa [← List.head?_eq_getElem?, ← List.head?_eq_getElem?] at this
  simp only [ren_eq_nil, hh, last_iff H.inj H.closing, substr_ren, List.length_map, findChar_ren H.inj H.equals]
  split
  · rfl
  · split
    · rw [ren, List.getLast?_map]
      cases (substr s 1 (s.length - 2)).getLast? with
      | none => rfl
      | some x =>
        by_cases hx : x = '.'
        · subst hx
          rw [Option.map_some, H.dot]
          rfl
        · have hx' : π x ≠ '.' := fun h => hx ((char_iff H.inj H.dot).1 h)
          rw [Option.map_some]
          split
          · rename_i h; cases h
          · rename_i h; injection h with h; exact absurd h hx'
          · refine congrArg Except.ok (congrArg LineResult.section_ ?_)
            rw [ren, List.map_append, List.map_singleton, H.dot]
    · cases findChar s '=' with
      | none => exact congrArg Except.error (configSyntax_ren s _)
      | some n =>
        dsimp only
        have h1 : ren π pre ++ trimWs ((ren π s).take n) = ren π (pre ++ trimWs (s.take n)) := by
          rw [show (ren π s).take n = ren π (s.take n) from List.map_take.symm, trimWs_ren H]
          exact List.map_append.symm
        have h2 : trimWs ((ren π s).drop (n + 1)) = ren π (trimWs (s.drop (n + 1))) := by
          rw [show (ren π s).drop (n + 1) = ren π (s.drop (n + 1)) from List.map_drop.symm, trimWs_ren H]
        rw [h1, h2, ha, hu]
        split
        · exact congrArg Except.error (unknown_ren _)
        · rfl

theorem lines_ren (H : HarmlessFile π) (hu : it'.allowUnregistered = it.allowUnregistered) (ha : ∀ n, it'.allowed (ren π n) = it.allowed n)
    (pre : Str) (ls : List Str) : it'.lines (ren π pre) (ls.map (ren π)) = renWith π (List.map (renOpt π)) (it.lines pre ls) := by
  induction ls generalizing pre with
  | nil => rfl
  | cons l ls ih =>
    rw [List.map_cons, ConfigIter.lines, ConfigIter.lines, stripLine_ren H, line_ren H hu ha]
    cases it.line pre (stripLine l) with
    | error f => rfl
    | ok r =>
      cases r with
      | skip => exact ih pre
      | section_ p => exact ih p
      | option o =>
        dsimp only [renWith, renLine]
        rw [ih]
        cases it.lines pre ls with
        | error f => rfl
        | ok os => rfl

end Letters

open Letters

/-- A description and a configuration file written in other letters give the same options, or the same exception, in these letters: the
reader knows no character but `#`, `=`, `[`, `]`, `.`, `*`, the line end and the blanks. If two wildcards overlap, both refuse to
read for this reason (the two names in the text depend on the order of the names). -/
theorem C153_letters (π : Char → Char) (H : HarmlessFile π) (text : Str) (desc : List OptionDesc) (au : Bool) :
    (((∃ d ∈ desc, d.firstLong = []) ∨ ¬ Overlap desc) →
      parseConfigFile (ren π text) (desc.map (renOption π)) au = renWith π (renParsed π) (parseConfigFile text desc au)) ∧
    ((∀ d ∈ desc, d.firstLong ≠ []) → Overlap desc →
      (∃ a b, parseConfigFile text desc au = .error (.error (overlapText a b))) ∧
      ∃ a b, parseConfigFile (ren π text) (desc.map (renOption π)) au = .error (.error (overlapText a b))) := by
  have hnil : ∀ d : OptionDesc, (renOption π d).firstLong = [] ↔ d.firstLong = [] := by
    intro d
    rw [firstLong_ren, ren_eq_nil]
  have fails : ∀ (text : Str) (desc : List OptionDesc), (∀ d ∈ desc, d.firstLong ≠ []) → Overlap desc →
      ∃ a b, parseConfigFile text desc au = .error (.error (overlapText a b)) := by
    intro text desc hne ho
    rcases reader_spec desc au hne with ⟨S, it, _, _, _, _, h⟩ | ⟨S, s, y, x, h1, h2, -⟩
    · exact absurd ho h
    · refine ⟨s ++ ['*'], y, ?_⟩
      unfold parseConfigFile
      rw [h1]
      dsimp only
      rw [h2]
      rfl
  constructor
  · intro h
    by_cases h0 : ∃ d ∈ desc, d.firstLong = []
    · obtain ⟨d, hd, hd0⟩ := h0
      unfold parseConfigFile
      rw [allowedNames_error desc [] ⟨d, hd, hd0⟩,
        allowedNames_error (desc.map (renOption π)) [] ⟨renOption π d, List.mem_map_of_mem hd, (hnil d).2 hd0⟩]
      rfl
    · have hov := h.resolve_left h0
      have hne : ∀ d ∈ desc, d.firstLong ≠ [] := fun d hd e => h0 ⟨d, hd, e⟩
      have hne' : ∀ d ∈ desc.map (renOption π), d.firstLong ≠ [] := by
        intro d' hd' e
        obtain ⟨d, hd, rfl⟩ := List.mem_map.1 hd'
        exact hne d hd ((hnil d).1 e)
      have hover : ∀ {s x : Str} {ds : List OptionDesc}, (∃ d ∈ ds, d.firstLong = s ++ ['*']) → (∃ d ∈ ds, d.firstLong = x ++ ['*']) → x ≠ s →
          (x <+: s ∨ s <+: x) → Overlap ds := by
        rintro s x ds ⟨d, hd, e⟩ ⟨d2, hd2, e2⟩ hxs (h | h)
        · exact ⟨d2, hd2, d, hd, x, s, e2, e, hxs, h⟩
        · exact ⟨d, hd, d2, hd2, s, x, e, e2, fun e => hxs e.symm, h⟩
      rcases reader_spec desc au hne with ⟨S, it, h1, h2, h3, h4, -⟩ | ⟨S, s, y, x, -, -, h1, -, h2, -, h3, h4⟩
      swap
      · exact absurd (hover h1 h2 h3 h4) hov
      rcases reader_spec _ au hne' with ⟨S', it', h1', h2', h3', h4', -⟩ | ⟨S', s, y, x, -, -, k1, -, k2, -, k3, k4⟩
      swap
      · exact absurd ((overlap_ren H.inj H.star desc).1 (hover k1 k2 k3 k4)) hov
      have ha : ∀ n, it'.allowed (ren π n) = it.allowed n := by
        intro n
        rw [Bool.eq_iff_iff, h4', h4, accepts_ren H.inj H.star]
      have hl := lines_ren (it := it) (it' := it') H (by rw [h3, h3']) ha [] (getlines '\n' text)
      unfold parseConfigFile
      rw [h1, h1']
      dsimp only
      rw [h2, h2']
      dsimp only
      rw [getlines_ren H, show it'.lines [] ((getlines '\n' text).map (ren π)) = _ from hl]
      cases it.lines [] (getlines '\n' text) with
      | error f => rfl
      | ok os => rfl
  · intro hne ho
    refine ⟨fails text desc hne ho, fails _ _ ?_ ((overlap_ren H.inj H.star desc).2 ho)⟩
    intro d' hd' e
    obtain ⟨d, hd, rfl⟩ := List.mem_map.1 hd'
    exact hne d hd ((hnil d).1 e)

namespace Letters

def given (n v : Str) : Opt := { stringKey := n, value := [v], unregistered := true, originalTokens := [n, v] }

/-- A reader to which no name is declared. -/
def free : ConfigIter := { allowedOptions := [], allowedPrefixes := [], allowUnregistered := true }

theorem read_free (text : Str) : parseConfigFile text [] true = (free.lines [] (getlines '\n' text)).map fun os => { desc := [], options := os } := by
  rw [show parseConfigFile text [] true = (match free.lines [] (getlines '\n' text) with
      | .error f => .error f
      | .ok os => .ok { desc := [], options := os }) from rfl]
  cases free.lines [] (getlines '\n' text) <;> rfl

theorem read_one (c : Char) : free.lines [] (getlines '\n' [c]) = .ok [given [] []] ↔ c = '=' := by
  constructor
  · intro h
    by_cases h1 : c = '='
    · exact h1
    exfalso
    revert h
    by_cases h2 : c = '\n'
    · subst h2; intro h; cases h
    by_cases h3 : c = '#'
    · subst h3; intro h; cases h
    by_cases h4 : isWs c = true
    · simp [getlines, getlinesAux, h2, ConfigIter.lines, ConfigIter.line, stripLine, findChar, h3, trimWs, h4]
    · have h5 : ¬ (c = '[' ∧ c = ']') := by
        rintro ⟨rfl, h⟩
        cases h
      simp [getlines, getlinesAux, h2, ConfigIter.lines, ConfigIter.line, stripLine, findChar, h3, trimWs, h4, h1, h5]
  · rintro rfl
    rfl

def readTwo (c : Char) : List Opt :=
  if c = '#' then [] else if isWs c = true then [given [] []] else if c = '=' then [given [] ['=']] else [given [c] []]

theorem read_two (c : Char) : free.lines [] (getlines '\n' [c, '=']) = .ok (readTwo c) := by
  by_cases h1 : c = '#'
  · subst h1; rfl
  by_cases h2 : c = '='
  · subst h2; rfl
  by_cases h3 : c = '\n'
  · subst h3; rfl
  have e : isWs '=' = false := rfl
  by_cases h4 : isWs c = true
  · simp [getlines, getlinesAux, h3, ConfigIter.lines, ConfigIter.line, stripLine, findChar, h1, trimWs, h4, given, readTwo, e, free]
    rfl
  · simp [getlines, getlinesAux, h3, ConfigIter.lines, ConfigIter.line, stripLine, findChar, h1, trimWs, h4, h2, given, readTwo, e, free]
    rfl

theorem read_three (c : Char) : (∃ a b, free.lines [] (getlines '\n' ['=', c, '=']) = .ok [a, b]) ↔ c = '\n' := by
  constructor
  · rintro ⟨a, b, h⟩
    by_cases h1 : c = '\n'
    · exact h1
    exfalso
    revert h
    by_cases h2 : c = '#'
    · subst h2; intro h; cases h
    have e : isWs '=' = false := rfl
    simp [getlines, getlinesAux, h1, ConfigIter.lines, ConfigIter.line, stripLine, findChar, h2, trimWs, e, free]
  · rintro rfl
    exact ⟨_, _, rfl⟩

/-- No character that means anything outside of a section line. -/
def Plain (c : Char) : Prop := c ≠ '#' ∧ c ≠ '=' ∧ isWs c = false

theorem Plain.nl {c : Char} (h : Plain c) : c ≠ '\n' := by
  rintro rfl
  cases h.2.2

theorem read_section (u v : Char) (hu : Plain u) (hv : Plain v) :
    free.lines [] (getlines '\n' [u, v]) = .error (.ub .emptySection) → u = '[' ∧ v = ']' := by
  intro h
  by_cases h1 : u = '[' ∧ v = ']'
  · exact h1
  exfalso
  revert h
  obtain ⟨a1, a2, a3⟩ := id hu
  obtain ⟨b1, b2, b3⟩ := id hv
  simp [getlines, getlinesAux, hu.nl, hv.nl, ConfigIter.lines, ConfigIter.line, stripLine, findChar, a1, b1, a2, b2, a3, b3, trimWs, h1, errConfigSyntax]

theorem read_dot (c : Char) (hc : Plain c) : free.lines [] (getlines '\n' ['[', c, ']', '\n', '=']) = .ok [given [c] []] → c = '.' := by
  intro h
  by_cases h1 : c = '.'
  · exact h1
  exfalso
  revert h
  obtain ⟨a1, a2, a3⟩ := id hc
  have e1 : isWs '[' = false := rfl
  have e2 : isWs ']' = false := rfl
  have e3 : isWs '=' = false := rfl
  simp [getlines, getlinesAux, hc.nl, ConfigIter.lines, ConfigIter.line, stripLine, findChar, a1, trimWs, substr, given, e1, e2, e3, free]

/-- A reader to which one name is declared. -/
def single (n : Str) : ConfigIter := { allowedOptions := [n], allowedPrefixes := [], allowUnregistered := false }

theorem read_single (text n : Str) (x : Char) (hn : n.getLast? = some x) (hx : x ≠ '*') :
    parseConfigFile text [only n] false = ((single n).lines [] (getlines '\n' text)).map fun os => { desc := [only n], options := os } := by
  have h0 : n ≠ [] := by
    rintro rfl
    cases hn
  have h1 : allowedNames [only n] [] = .ok [n] := by
    simp [allowedNames, only, OptionDesc.longName, h0, SSet.insert]
  have h2 : ConfigIter.make [n] false = .ok (single n) := by
    simp [ConfigIter.make, addOptions, addOption, hn, single]
  unfold parseConfigFile
  rw [h1]
  dsimp only
  rw [h2]
  dsimp only
  cases (single n).lines [] (getlines '\n' text) <;> rfl

theorem single_allowed (n s : Str) : (single n).allowed s = (n == s) := by
  unfold ConfigIter.allowed single
  cases h : n == s <;> simp [SSet.has, SSet.lowerBound, h]

theorem read_named (n : Str) (b : Char) (h1 : b ≠ '#') (h2 : b ≠ '=') (h3 : b ≠ '\n') : (single n).lines [] (getlines '\n' ['.', b, '.', '=']) =
    if n = ['.', b, '.'] then .ok [{ stringKey := ['.', b, '.'], value := [[]], originalTokens := [['.', b, '.'], []] }]
    else .error (errUnknown ['.', b, '.']) := by
  have e1 : isWs '.' = false := rfl
  have e2 : isWs '=' = false := rfl
  have e3 : (single n).allowUnregistered = false := rfl
  by_cases hn : n = ['.', b, '.']
  · simp [getlines, getlinesAux, h3, ConfigIter.lines, ConfigIter.line, stripLine, findChar, h1, trimWs, h2, e1, e2, single_allowed, hn]
  · simp [getlines, getlinesAux, h3, ConfigIter.lines, ConfigIter.line, stripLine, findChar, h1, trimWs, h2, e1, e2, e3, single_allowed, hn]

theorem no_overlap (ds : List OptionDesc) (h : ds.length ≤ 1) : ¬ Overlap ds := by
  rintro ⟨d1, hd1, d2, hd2, s1, s2, h1, h2, h3, -⟩
  match ds, h with
  | [], _ => cases hd1
  | [d], _ =>
    rw [List.mem_singleton] at hd1 hd2
    rw [hd1] at h1
    rw [hd2, h1] at h2
    exact h3 (List.append_cancel_right h2)

end Letters

/-- Which letters may be replaced: exactly the harmless ones. -/
theorem C153_letters_iff (π : Char → Char) :
    (∀ (text : Str) (desc : List OptionDesc) (au : Bool), ((∃ d ∈ desc, d.firstLong = []) ∨ ¬ Overlap desc) →
      parseConfigFile (ren π text) (desc.map (renOption π)) au = renWith π (renParsed π) (parseConfigFile text desc au)) ↔ HarmlessFile π := by
  constructor
  swap
  · exact fun H text desc au => (C153_letters π H text desc au).1
  intro h
  have free1 : ∀ text os, free.lines [] (getlines '\n' text) = .ok os → free.lines [] (getlines '\n' (ren π text)) = .ok (os.map (renOpt π)) := by
    intro text os ho
    have := h text [] true (.inr (no_overlap [] (by simp)))
    rw [List.map_nil, read_free, read_free, ho] at this
    cases hq : free.lines [] (getlines '\n' (ren π text)) with
    | error f => rw [hq] at this; cases this
    | ok os' =>
      rw [hq] at this
      injection this with this
      rw [show os' = os.map (renOpt π) from congrArg Parsed.options this]
  have free2 : ∀ text u, free.lines [] (getlines '\n' text) = .error (.ub u) → free.lines [] (getlines '\n' (ren π text)) = .error (.ub u) := by
    intro text u ho
    have := h text [] true (.inr (no_overlap [] (by simp)))
    rw [List.map_nil, read_free, read_free, ho] at this
    cases hq : free.lines [] (getlines '\n' (ren π text)) with
    | error f =>
      rw [hq] at this
      injection this with this
      rw [this]
      rfl
    | ok os' => rw [hq] at this; cases this
  have heq : π '=' = '=' := (read_one _).1 (free1 ['='] [given [] []] rfl)
  have two : ∀ c, readTwo (π c) = (readTwo c).map (renOpt π) := by
    intro c
    have := free1 [c, '='] _ (read_two c)
    rw [show ren π [c, '='] = [π c, '='] by simp [ren, heq], read_two] at this
    injection this
  have hhash : ∀ c, π c = '#' ↔ c = '#' := by
    intro c
    have key : ∀ x, x = '#' ↔ readTwo x = [] := by
      intro x
      unfold readTwo
      constructor
      · intro h; rw [if_pos h]
      · intro h
        by_contra hx
        rw [if_neg hx] at h
        split at h
        · cases h
        · split at h <;> cases h
    rw [key, two, List.map_eq_nil_iff, ← key]
  have hws : ∀ c, isWs (π c) = true ↔ isWs c = true := by
    intro c
    have key : ∀ x, isWs x = true ↔ (readTwo x).map (fun o => (o.stringKey, o.value)) = [([], [[]])] := by
      intro x
      unfold readTwo
      by_cases h1 : x = '#'
      · subst h1; decide
      rw [if_neg h1]
      by_cases h2 : isWs x = true
      · rw [if_pos h2]; simp [h2, given]
      rw [if_neg h2]
      by_cases h3 : x = '='
      · subst h3; decide
      rw [if_neg h3]; simp [h2, given]
    rw [key, two, key]
    unfold readTwo
    by_cases h1 : c = '#'
    · rw [if_pos h1]; simp
    rw [if_neg h1]
    by_cases h2 : isWs c = true
    · rw [if_pos h2]; simp [given, renOpt]
    rw [if_neg h2]
    by_cases h3 : c = '='
    · rw [if_pos h3]; simp [given, renOpt]
    rw [if_neg h3]; simp [given, renOpt]
  have hequals : ∀ c, π c = '=' ↔ c = '=' := by
    intro c
    refine ⟨fun hc => ?_, fun hc => by rw [hc, heq]⟩
    have := two c
    rw [hc, show readTwo '=' = [given [] ['=']] from rfl] at this
    by_contra h3
    unfold readTwo at this
    have h1 : c ≠ '#' := fun e => by
      rw [(hhash c).2 e] at hc
      cases hc
    have h2 : ¬ isWs c = true := fun e => by
      rw [← hws, hc] at e
      cases e
    rw [if_neg h1, if_neg h2, if_neg h3] at this
    simp [given, renOpt] at this
  have hnl : ∀ c, π c = '\n' ↔ c = '\n' := by
    have h1 : π '\n' = '\n' := by
      rw [← read_three]
      have := free1 ['=', '\n', '='] _ rfl
      rw [show ren π ['=', '\n', '='] = ['=', π '\n', '='] by simp [ren, heq]] at this
      exact ⟨_, _, this⟩
    intro c
    refine ⟨fun hc => ?_, fun hc => by rw [hc, h1]⟩
    by_contra hne
    by_cases h2 : c = '#'
    · rw [(hhash c).2 h2] at hc
      cases hc
    have e : isWs '=' = false := rfl
    obtain ⟨o, ho⟩ : ∃ o, free.lines [] (getlines '\n' ['=', c, '=']) = .ok [o] := by
      simp [getlines, getlinesAux, hne, ConfigIter.lines, ConfigIter.line, stripLine, findChar, h2, trimWs, e, free]
    have := free1 _ _ ho
    rw [show ren π ['=', c, '='] = ['=', '\n', '='] by simp [ren, heq, hc],
      show free.lines [] (getlines '\n' ['=', '\n', '=']) = .ok [given [] [], given [] []] from rfl] at this
    injection this with this
    cases congrArg List.length this
  have plain : ∀ c, Plain c → Plain (π c) := by
    rintro c ⟨h1, h2, h3⟩
    refine ⟨fun e => h1 ((hhash c).1 e), fun e => h2 ((hequals c).1 e), ?_⟩
    rw [Bool.eq_false_iff] at h3 ⊢
    exact fun e => h3 ((hws c).1 e)
  obtain ⟨hopen, hclose⟩ := read_section _ _ (plain '[' ⟨by decide, by decide, rfl⟩) (plain ']' ⟨by decide, by decide, rfl⟩)
    (free2 ['[', ']'] _ rfl)
  have hdot : π '.' = '.' := by
    refine read_dot _ (plain '.' ⟨by decide, by decide, rfl⟩) ?_
    have := free1 ['[', '.', ']', '\n', '='] [given ['.'] []] rfl
    rw [show ren π ['[', '.', ']', '\n', '='] = ['[', π '.', ']', '\n', '='] by simp [ren, heq, hopen, hclose, (hnl '\n').2 rfl]] at this
    exact this
  have hinj : ∀ a b, π a = π b → a = b := by
    intro a b hab
    by_contra hne
    have single : ∀ x, (∀ c, π c = x ↔ c = x) → b ≠ x := by
      rintro x hx rfl
      exact hne ((hx a).1 (hab.trans ((hx b).2 rfl)))
    have b1 := single '#' hhash
    have b2 := single '=' hequals
    have b3 := single '\n' hnl
    have := h ['.', b, '.', '='] [only ['.', a, '.']] false (.inr (no_overlap _ (by simp)))
    rw [show [only ['.', a, '.']].map (renOption π) = [only ['.', π b, '.']] by simp [only, renOption, ren, hdot, hab],
      show ren π ['.', b, '.', '='] = ['.', π b, '.', '='] by simp [ren, hdot, heq],
      read_single _ _ '.' rfl (by decide), read_single _ _ '.' rfl (by decide),
      read_named _ b b1 b2 b3, read_named _ (π b) (fun e => b1 ((hhash b).1 e)) (fun e => b2 ((hequals b).1 e)) (fun e => b3 ((hnl b).1 e)),
      if_pos rfl, if_neg (by simp [hne])] at this
    cases this
  have hstar : π '*' = '*' := by
    by_contra hne
    have := h ['.', '='] [only ['*']] false (.inr (no_overlap _ (by simp)))
    rw [show [only ['*']].map (renOption π) = [only [π '*']] from rfl, show ren π ['.', '='] = ['.', '='] by simp [ren, hdot, heq],
      read_single _ _ (π '*') rfl hne] at this
    have hd : π '*' ≠ '.' := fun e => absurd (hinj _ _ (e.trans hdot.symm)) (by decide)
    have hl : (single [π '*']).lines [] (getlines '\n' ['.', '=']) = .error (errUnknown ['.']) := by
      have e1 : isWs '.' = false := rfl
      have e2 : isWs '=' = false := rfl
      have e3 : (single [π '*']).allowUnregistered = false := rfl
      simp [getlines, getlinesAux, ConfigIter.lines, ConfigIter.line, stripLine, findChar, trimWs, e1, e2, e3, single_allowed, hd]
    rw [hl] at this
    cases this
  refine ⟨hinj, (hhash _).2 rfl, heq, hopen, hclose, hdot, hstar, (hnl _).2 rfl, fun a => ?_⟩
  have key : ∀ x, (x = ' ' ∨ x = '\t' ∨ x = '\r') ↔ isWs x = true ∧ x ≠ '\n' := by
    intro x
    unfold isWs
    constructor
    · rintro (rfl | rfl | rfl) <;> decide
    · rintro ⟨h1, h2⟩
      simpa [h2, or_assoc] using h1
  rw [key, key, hws, ne_eq, hnl]

theorem Letters.findEquals_ren (he : ∀ c, π c = '=' ↔ c = '=') (s : Str) : findChar (ren π s) '=' = findChar s '=' := by
  induction s with
  | nil => rfl
  | cons a s ih =>
    show findChar (π a :: ren π s) '=' = findChar (a :: s) '='
    unfold findChar
    rw [ih]
    simp only [he]

/-- The same for the environment, where only `=` is special; the name mapper does the same in other letters. -/
theorem C153_environment (π : Char → Char) (he : ∀ c, π c = '=' ↔ c = '=') (environ : List Str) (desc : List OptionDesc)
    (mapper mapper' : Str → Str) (hm : ∀ n, mapper' (ren π n) = ren π (mapper n)) :
    parseEnvironment (environ.map (ren π)) (desc.map (renOption π)) mapper' = renWith π (renParsed π) (parseEnvironment environ desc mapper) := by
  have hl : parseEnvironmentLoop mapper' (environ.map (ren π)) = renWith π (List.map (renOpt π)) (parseEnvironmentLoop mapper environ) := by
    induction environ with
    | nil => rfl
    | cons e es ih =>
      rw [List.map_cons, parseEnvironmentLoop, parseEnvironmentLoop]
      unfold splitEnv
      rw [findEquals_ren he]
      cases findChar e '=' with
      | none => rfl
      | some n =>
        dsimp only
        rw [ih]
        cases parseEnvironmentLoop mapper es with
        | error f => rfl
        | ok os =>
          dsimp only [renWith]
          rw [show (ren π e).take n = ren π (e.take n) from List.map_take.symm, hm,
            show (ren π e).drop (n + 1) = ren π (e.drop (n + 1)) from List.map_drop.symm]
          simp only [ren_eq_nil]
          split <;> rfl
  unfold parseEnvironment
  rw [hl]
  cases parseEnvironmentLoop mapper environ with
  | error f => rfl
  | ok os => rfl

/-- Nothing else may be replaced in the environment. -/
theorem C153_environment_iff (π : Char → Char) :
    (∀ (environ : List Str) (desc : List OptionDesc) (mapper mapper' : Str → Str), (∀ n, mapper' (ren π n) = ren π (mapper n)) →
      parseEnvironment (environ.map (ren π)) (desc.map (renOption π)) mapper' = renWith π (renParsed π) (parseEnvironment environ desc mapper)) ↔
    ∀ c, π c = '=' ↔ c = '=' := by
  constructor
  swap
  · exact fun he environ desc mapper mapper' => C153_environment π he environ desc mapper mapper'
  intro h
  have one : ∀ x, parseEnvironment [[x]] [] (fun n => n) = if x = '=' then .ok { desc := [], options := [] } else .error (.ub .envNoEquals) := by
    intro x
    by_cases hx : x = '='
    · subst hx; rfl
    · simp [parseEnvironment, parseEnvironmentLoop, splitEnv, findChar, hx]
  intro c
  have := h [[c]] [] (fun n => n) (fun n => n) (fun _ => rfl)
  rw [show [[c]].map (ren π) = [[π c]] from rfl, List.map_nil, one, one] at this
  by_cases h1 : π c = '=' <;> by_cases h2 : c = '='
  · exact ⟨fun _ => h2, fun _ => h1⟩
  · rw [if_pos h1, if_neg h2] at this
    cases this
  · rw [if_neg h1, if_pos h2] at this
    cases this
  · exact ⟨fun e => absurd e h1, fun e => absurd e h2⟩

/-- And for the environment with a prefix of names, if pairs of upper and lower case stay pairs. -/
theorem C153_prefix (π : Char → Char) (hi : ∀ a b, π a = π b → a = b) (he : π '=' = '=') (hl : ∀ a, π a.toLower = (π a).toLower)
    (environ : List Str) (desc : List OptionDesc) (pre : Str) :
    parseEnvironmentPrefix (environ.map (ren π)) (desc.map (renOption π)) (ren π pre) =
      renWith π (renParsed π) (parseEnvironmentPrefix environ desc pre) := by
  refine C153_environment π (fun c => char_iff hi he) environ desc (prefixMapper pre) (prefixMapper (ren π pre)) fun n => ?_
  unfold prefixMapper
  rw [findSub_ren hi]
  split
  · rw [List.length_map, show (ren π n).drop pre.length = ren π (n.drop pre.length) from List.map_drop.symm, toLower_ren hl]
  · rfl

/-- With `a` and `b` swapped. -/
example : let desc := [Test.od "bar" (Test.sem Test.vstr), Test.od "cab.*" (Test.sem Test.vstr)]
    let desc' := [Test.od "abr" (Test.sem Test.vstr), Test.od "cba.*" (Test.sem Test.vstr)]
    HarmlessFile swapped ∧ desc.map (renOption swapped) = desc' ∧ ¬ Overlap desc ∧
    (parseConfigFile (Test.L "bar = a # b\n[cab]\na=x") desc).map (·.options) =
      .ok [{ stringKey := Test.L "bar", value := [Test.L "a"], originalTokens := [Test.L "bar", Test.L "a"] },
        { stringKey := Test.L "cab.a", value := [Test.L "x"], originalTokens := [Test.L "cab.a", Test.L "x"] }] ∧
    (parseConfigFile (Test.L "abr = b # a\n[cba]\nb=x") desc').map (·.options) =
      .ok [{ stringKey := Test.L "abr", value := [Test.L "b"], originalTokens := [Test.L "abr", Test.L "b"] },
        { stringKey := Test.L "cba.b", value := [Test.L "x"], originalTokens := [Test.L "cba.b", Test.L "x"] }] := by
  refine ⟨⟨fun a b h => ?_, by decide, by decide, by decide, by decide, by decide, by decide, by decide, fun a => ?_⟩, rfl, ?_, rfl, rfl⟩
  rotate_left
  · have e : ∀ x, swapped x = x → (swapped a = x ↔ a = x) := by
      intro x hx
      constructor
      · intro h
        rw [← swapped_swapped a, h, hx]
      · rintro rfl
        exact hx
    rw [e ' ' (by decide), e '\t' (by decide), e '\r' (by decide)]
  rotate_right
  · have := congrArg swapped h
    rwa [swapped_swapped, swapped_swapped] at this
  · rintro ⟨d1, hd1, d2, hd2, s1, s2, h1, h2, h3, -⟩
    simp only [List.mem_cons, List.not_mem_nil, or_false] at hd1 hd2
    rcases hd1 with rfl | rfl
    · have := congrArg List.getLast? h1
      rw [List.getLast?_concat] at this
      cases this
    · rcases hd2 with rfl | rfl
      · have := congrArg List.getLast? h2
        rw [List.getLast?_concat] at this
        cases this
      · exact h3 (List.append_cancel_right (h1.symm.trans h2))

end PO
