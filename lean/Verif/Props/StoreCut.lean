import Verif.Props.FileCut
import Verif.Props.StoreGrammar
/-
C162: storing the first options of a source.
-/
namespace PO
open Spec FileCut

namespace StoreCut

theorem store_of_loop {p : Parsed} {xm m : VarMap} {utf8 : Bool} (h : store p xm utf8 = (m, none)) :
    ∃ sm nf, storeLoop p.desc p.pre utf8 xm.final p.options xm.map [] = ((sm, nf), none) ∧ m.required = (applyAll p.pre p.desc sm xm.required).2 := by
  unfold store at h
  split at h
  · cases h
  · rename_i sm nf he
    cases h
    exact ⟨sm, nf, he, rfl⟩

theorem mentions_append {a b : List Opt} {n : Str} : Mentions (a ++ b) n ↔ Mentions a n ∨ Mentions b n := by
  constructor
  · rintro ⟨o, ho, h⟩
    rcases List.mem_append.1 ho with ho | ho
    exacts [.inl ⟨o, ho, h⟩, .inr ⟨o, ho, h⟩]
  · rintro (⟨o, ho, h⟩ | ⟨o, ho, h⟩)
    exacts [⟨o, List.mem_append_left _ ho, h⟩, ⟨o, List.mem_append_right _ ho, h⟩]

theorem occurrences_none {b : List Opt} {n : Str} (h : ¬ Mentions b n) : occurrences b n = [] := by
  unfold occurrences
  rw [List.filter_eq_nil_iff]
  intro o ho hd
  simp only [decide_eq_true_eq] at hd
  exact h ⟨o, ho, hd⟩

theorem yields_append {desc : List OptionDesc} {xm : VarMap} {utf8 : Bool} {a b : List Opt} {n : Str} (h : ¬ Mentions b n) {d : OptionDesc} {v : Any} :
    Yields desc xm utf8 (a ++ b) n d v ↔ Yields desc xm utf8 a n d v := by
  have : occurrences (a ++ b) n = occurrences a n := by
    have h1 := occurrences_none h
    unfold occurrences at h1 ⊢
    rw [List.filter_append, h1, List.append_nil]
  unfold Yields
  rw [this]

theorem yields_det {desc : List OptionDesc} {xm : VarMap} {utf8 : Bool} {a : List Opt} {n : Str} {d d' : OptionDesc} {v v' : Any}
    (h : Yields desc xm utf8 a n d v) (h' : Yields desc xm utf8 a n d' v') : d' = d ∧ v' = v := by
  obtain ⟨h1, h2⟩ := h
  obtain ⟨h3, h4⟩ := h'
  rw [h1] at h3; cases h3
  rw [h2] at h4; cases h4
  exact ⟨rfl, rfl⟩

end StoreCut
open StoreCut

/-- **C162.** If a source is stored, so are its first options alone: the names that the others do not set get the same records, nothing becomes final that would not, and
the same options are required. -/
theorem C162_stored (p : Parsed) (os os' : List Opt) (hp : p.options = os ++ os') (xm m : VarMap) (utf8 : Bool) (h : store p xm utf8 = (m, none)) :
    ∃ m', store { p with options := os } xm utf8 = (m', none) ∧ (∀ name, ¬ Mentions os' name → m'.map.get? name = m.map.get? name) ∧
      (∀ name, name ∈ m'.final → name ∈ m.final) ∧ ∀ key, m'.required.get? key = m.required.get? key := by
  obtain ⟨sm, nf, hl, hr⟩ := store_of_loop h
  rw [hp, storeLoop_append'] at hl
  obtain ⟨m', h'⟩ : ∃ m', store { p with options := os } xm utf8 = (m', none) := by
    refine ⟨(store { p with options := os } xm utf8).1, Prod.ext rfl ?_⟩
    rw [store_snd]
    dsimp only
    generalize storeLoop p.desc p.pre utf8 xm.final os xm.map [] = q at hl ⊢
    obtain ⟨s, _ | f⟩ := q
    · rfl
    · cases hl
  obtain ⟨sm', nf', -, hr'⟩ := store_of_loop h'
  refine ⟨m', h', fun name hn => ?_, fun name hn => ?_, fun key => ?_⟩
  · obtain ⟨a1, a2⟩ := C65_result _ _ _ _ h name
    obtain ⟨b1, b2⟩ := C65_result _ _ _ _ h' name
    rw [hp, mentions_append] at a1 a2
    by_cases hc : Mentions os name ∧ name ∉ xm.final
    · obtain ⟨d, v, y1, e1, -⟩ := a1 (.inl hc.1) hc.2
      obtain ⟨d', v', y2, e2, -⟩ := b1 hc.1 hc.2
      obtain ⟨rfl, rfl⟩ := yields_det ((yields_append hn).1 y1) y2
      rw [e1, e2]
    · have : ¬ Mentions os name ∨ name ∈ xm.final := by
        by_cases h1 : Mentions os name
        · exact .inr (by by_contra h2; exact hc ⟨h1, h2⟩)
        · exact .inl h1
      rw [(a2 (this.imp (fun h1 h2 => h2.elim h1 hn) id)).1, (b2 this).1]
  · obtain ⟨a1, a2⟩ := C65_result _ _ _ _ h name
    obtain ⟨b1, b2⟩ := C65_result _ _ _ _ h' name
    rw [hp, mentions_append] at a1 a2
    by_cases hf : name ∈ xm.final
    · exact (a2 (.inr hf)).2.2 hf
    · by_cases hc : Mentions os name
      · obtain ⟨d, v, y1, -, e1⟩ := a1 (.inl hc) hf
        obtain ⟨d', v', y2, -, e2⟩ := b1 hc hf
        have hd := y1.1
        rw [y2.1] at hd; cases hd
        exact e1.2 (e2.1 hn)
      · exact absurd ((b2 (.inl hc)).2.1 hn) hf
  · rw [hr, hr', applyAll_required, applyAll_required]

/-- If the first options cannot be stored, neither can the source; exception and map are the same. -/
theorem C162_failed (p : Parsed) (os os' : List Opt) (hp : p.options = os ++ os') (xm m : VarMap) (utf8 : Bool) (f : Fail)
    (h : store { p with options := os } xm utf8 = (m, some f)) : store p xm utf8 = (m, some f) := by
  unfold store at h ⊢
  rw [hp, storeLoop_append']
  dsimp only at h
  generalize storeLoop p.desc p.pre utf8 xm.final os xm.map [] = q at h
  obtain ⟨⟨sm, nf⟩, _ | g⟩ := q
  · cases h
  · exact h

/-- **C162, files.** If a configuration file can be read and stored, so can each beginning of it that ends with a line end. -/
theorem C162_file (desc : List OptionDesc) (au : Bool) (a b : Str) (ha : EndsWith a []) (xm m : VarMap) (utf8 : Bool) (p : Parsed)
    (h : parseConfigFile (a ++ b) desc au = .ok p) (hs : store p xm utf8 = (m, none)) :
    ∃ pa m', parseConfigFile a desc au = .ok pa ∧ store pa xm utf8 = (m', none) := by
  obtain ⟨pa, os, h1, -, h3⟩ := C161_lines desc au a b ha p h
  have e1 := FileParts.parsed_desc h
  have e2 := FileParts.parsed_desc h1
  obtain ⟨m', h4, -⟩ := C162_stored p pa.options os h3 xm m utf8 hs
  refine ⟨pa, m', h1, ?_⟩
  rw [e2]
  rw [e1] at h4
  exact h4

/-- What whole lines make `store` complain about, it complains about whatever comes after them, unless that cannot be read. -/
theorem C162_file_failed (desc : List OptionDesc) (au : Bool) (a b : Str) (ha : EndsWith a []) (xm m : VarMap) (utf8 : Bool) (p pa : Parsed) (f : Fail)
    (h : parseConfigFile a desc au = .ok pa) (hs : store pa xm utf8 = (m, some f)) (h2 : parseConfigFile (a ++ b) desc au = .ok p) :
    store p xm utf8 = (m, some f) := by
  obtain ⟨pa', os, h1, -, h3⟩ := C161_lines desc au a b ha p h2
  rw [h] at h1; cases h1
  have e1 := FileParts.parsed_desc h2
  have e2 := FileParts.parsed_desc h
  apply C162_failed p pa.options os h3
  rw [e2] at hs
  rw [e1]
  exact hs

/-! ### Examples -/

/-- The first two of three options; the third would have continued a composing option. -/
example : ∃ m', store { Ex.src1 with options := [Ex.o "name" ["a"], Ex.o "inc" ["x", "y"]] } {} = (m', none) ∧
    m'.map.get? (Test.L "name") = (store Ex.src1 {}).1.map.get? (Test.L "name") := by
  obtain ⟨m', h1, h2, -⟩ := C162_stored Ex.src1 [Ex.o "name" ["a"], Ex.o "inc" ["x", "y"]] [Ex.o "inc" ["z"]] rfl {} _ false (Prod.ext rfl (by decide))
  refine ⟨m', h1, h2 _ ?_⟩
  rintro ⟨o, ho, e, -⟩
  rw [List.mem_singleton.1 ho] at e
  exact absurd e (by decide)

example : (store { Ex.src1 with options := [Ex.o "name" ["a"], Ex.o "inc" ["x", "y"]] } {}).1.map.get? (Test.L "name") ≠ none := by decide

example : (store { desc := Ex.descs, options := [Ex.o "name" ["a"], Ex.o "level" ["x"], Ex.o "level" ["y"], Ex.o "name" ["b"]] } {}).2 =
    (store { desc := Ex.descs, options := [Ex.o "name" ["a"], Ex.o "level" ["x"], Ex.o "level" ["y"]] } {}).2 := by
  have h : store { desc := Ex.descs, options := [Ex.o "name" ["a"], Ex.o "level" ["x"], Ex.o "level" ["y"]] } {} = (_, some _) := rfl
  rw [C162_failed { desc := Ex.descs, options := [Ex.o "name" ["a"], Ex.o "level" ["x"], Ex.o "level" ["y"], Ex.o "name" ["b"]] } _ [Ex.o "name" ["b"]] rfl {} _ false _ h]
  rfl

example : ∃ pa m', parseConfigFile (Ex.partM) Ex.partDesc false = .ok pa ∧ store pa {} = (m', none) :=
  C162_file Ex.partDesc false Ex.partM Ex.partGui (by obtain ⟨ls, ⟨h1, h2⟩, -⟩ := Ex.m_part; exact ⟨ls, by rw [h1]; simp, h2, by simp⟩) {} _ false
    (Ex.got (parseConfigFile (Ex.partM ++ Ex.partGui) Ex.partDesc false)) rfl rfl

end PO
