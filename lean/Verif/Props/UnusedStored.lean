import Verif.Props.Unused
import Verif.Props.StoreGrammar
/-
C133, up to the variables map: an option that a source does not use may be removed.
-/
namespace PO
open Spec

namespace Unused

/-- Without an option that is not a candidate for a name the candidates are the same. -/
theorem candidates_without {pre post : List OptionDesc} {d : OptionDesc} {name : Str} (h : d ∉ candidates (pre ++ d :: post) name) :
    candidates (pre ++ post) name = candidates (pre ++ d :: post) name := by
  have he : ¬ Exact d name false false := by
    intro he
    apply h
    have hm : d ∈ exacts (pre ++ d :: post) name false false := List.mem_filter.2 ⟨by simp, by simpa using he⟩
    unfold candidates
    rw [if_pos (fun hn => by rw [hn] at hm; cases hm)]
    exact hm
  have e1 : exacts (pre ++ post) name false false = exacts (pre ++ d :: post) name false false := by
    simp [exacts, List.filter_append, he]
  unfold candidates at h ⊢
  rw [e1]
  by_cases hx : exacts (pre ++ d :: post) name false false = []
  · rw [if_neg (by simp [hx])] at h ⊢
    rw [if_neg (by simp [hx])]
    have ha : ¬ (¬ Exact d name false false ∧ Approximate d name false false) := by
      intro ha
      exact h (List.mem_filter.2 ⟨by simp, by simpa using ha⟩)
    unfold approximates
    rw [List.filter_append, List.filter_append, List.filter_cons_of_neg (by simpa using ha)]
  · rw [if_pos hx, if_pos hx]

theorem firstDefault_without {pre post : List OptionDesc} {d : OptionDesc} {name : Str} (h : name ≠ d.own ∨ d.semantic.applyDefault = none) :
    firstDefault (pre ++ post) name = firstDefault (pre ++ d :: post) name := by
  unfold firstDefault
  rw [List.findSome?_append, List.findSome?_append, List.findSome?_cons]
  rcases h with h | h
  · rw [if_neg fun hh => h hh.1.symm]
  · rw [h]
    split
    · rename_i hx
      split at hx <;> cases hx
    · rfl

theorem required_without {pre post : List OptionDesc} {d : OptionDesc} {name : Str} (h : name ≠ d.own ∨ d.semantic.isRequired = false) :
    ((pre ++ post).filter fun e => e.own = name ∧ name ≠ [] ∧ e.semantic.isRequired = true) =
      (pre ++ d :: post).filter fun e => e.own = name ∧ name ≠ [] ∧ e.semantic.isRequired = true := by
  rw [List.filter_append, List.filter_append, List.filter_cons_of_neg]
  rcases h with h | h
  · simp only [decide_eq_true_eq]; exact fun hh => h hh.1.symm
  · simp [h]

theorem yields_without {pre post : List OptionDesc} {d : OptionDesc} {name : Str} (h : d ∉ candidates (pre ++ d :: post) name) {xm : VarMap} {u : Bool} {os : List Opt}
    {e : OptionDesc} {a : Any} : Yields (pre ++ post) xm u os name e a ↔ Yields (pre ++ d :: post) xm u os name e a := by
  unfold Yields; rw [candidates_without h]

theorem mentions_before {before after : List Opt} {o : Opt} {name : Str} (h : Mentions before name) : Mentions (before ++ o :: after) name := by
  obtain ⟨x, hx, hk⟩ := h
  exact ⟨x, by simp [hx], hk⟩

theorem outcome_without (p : Parsed) (pre post : List OptionDesc) (d : OptionDesc) (hd : p.desc = pre ++ d :: post)
    (hu : ∀ name, Mentions p.options name → d ∉ candidates p.desc name) (xm : VarMap) (u : Bool) :
    (store { p with desc := pre ++ post } xm u).2 = (store p xm u).2 := by
  rw [hd] at hu
  have key : ∀ f, (store { p with desc := pre ++ post } xm u).2 = some f ↔ (store p xm u).2 = some f := by
    intro f
    rw [C65_fails, C65_fails]
    have hall : ∀ before o after, p.options = before ++ o :: after →
        (AllYield (pre ++ post) xm u before ↔ AllYield (pre ++ d :: post) xm u before) := by
      intro before o after hs
      have hc := fun name (hm : Mentions before name) => hu name (by rw [hs]; exact mentions_before hm)
      constructor
      · intro h name hm hf
        obtain ⟨e, a, hy⟩ := h name hm hf
        exact ⟨e, a, (yields_without (hc name hm)).1 hy⟩
      · intro h name hm hf
        obtain ⟨e, a, hy⟩ := h name hm hf
        exact ⟨e, a, (yields_without (hc name hm)).2 hy⟩
    have hob : ∀ before o after e, p.options = before ++ o :: after → o.stringKey ≠ [] → o.unregistered = false →
        (Objects (pre ++ post) xm u before o e ↔ Objects (pre ++ d :: post) xm u before o e) := by
      intro before o after e hs h0 hr
      have hc : d ∉ candidates (pre ++ d :: post) o.stringKey := hu _ ⟨o, by rw [hs]; simp, rfl, h0, hr⟩
      have ec := candidates_without hc
      constructor
      · rintro (h | h | ⟨e', a, hy, he⟩)
        · exact .unknown (by rw [← ec]; exact h)
        · rw [ec]; exact .ambiguous (by rw [← ec]; exact h)
        · exact .value e' a ((yields_without hc).1 hy) he
      · rintro (h | h | ⟨e', a, hy, he⟩)
        · exact .unknown (by rw [ec]; exact h)
        · rw [← ec]; exact .ambiguous (by rw [ec]; exact h)
        · exact .value e' a ((yields_without hc).2 hy) he
    constructor
    · rintro ⟨before, o, after, e, ⟨h1, h2, h3, h4, h5, h6⟩, rfl⟩
      exact ⟨before, o, after, e, ⟨h1, h2, h3, h4, by rw [hd]; exact (hall _ _ _ h1).1 h5, by rw [hd]; exact (hob _ _ _ _ h1 h2 h3).1 h6⟩, rfl⟩
    · rintro ⟨before, o, after, e, ⟨h1, h2, h3, h4, h5, h6⟩, rfl⟩
      rw [hd] at h5 h6
      exact ⟨before, o, after, e, ⟨h1, h2, h3, h4, (hall _ _ _ h1).2 h5, (hob _ _ _ _ h1 h2 h3).2 h6⟩, rfl⟩
  cases h : (store p xm u).2 with
  | some f => exact (key f).2 h
  | none =>
    cases h' : (store { p with desc := pre ++ post } xm u).2 with
    | none => rfl
    | some f => rw [(key f).1 h'] at h; cases h

theorem record_without (p : Parsed) (pre post : List OptionDesc) (d : OptionDesc) (hd : p.desc = pre ++ d :: post)
    (hu : ∀ name, Mentions p.options name → d ∉ candidates p.desc name) (xm : VarMap) (u : Bool) (m m' : VarMap) (h : store p xm u = (m, none))
    (h' : store { p with desc := pre ++ post } xm u = (m', none)) (n : Str) :
    (n ≠ d.own ∨ d.semantic.applyDefault = none → m'.map.get? n = m.map.get? n) ∧ (n ∈ m'.final ↔ n ∈ m.final) ∧
    (n ≠ d.own ∨ d.semantic.isRequired = false → m'.required.get? n = m.required.get? n) := by
  obtain ⟨s1, s2⟩ := C65_result p xm m u h n
  obtain ⟨r1, r2⟩ := C65_result _ xm m' u h' n
  dsimp only at r1 r2
  refine ⟨?_, ?_, fun hn => ?_⟩
  · intro hn
    by_cases hc : Mentions p.options n ∧ n ∉ xm.final
    · obtain ⟨e, a, ⟨y1, y2⟩, y3, -⟩ := s1 hc.1 hc.2
      obtain ⟨e', a', ⟨z1, z2⟩, z3, -⟩ := r1 hc.1 hc.2
      have hx := hu n hc.1
      rw [hd] at hx y1
      rw [candidates_without hx, y1] at z1; cases z1
      rw [y2] at z2; cases z2
      rw [y3, z3]
    · have hc' : ¬ Mentions p.options n ∨ n ∈ xm.final := by
        by_cases hm : Mentions p.options n
        · exact .inr (Decidable.byContradiction fun hn => hc ⟨hm, hn⟩)
        · exact .inl hm
      rw [(s2 hc').1, (r2 hc').1, hd, firstDefault_without hn]
  · by_cases hc : Mentions p.options n ∧ n ∉ xm.final
    · obtain ⟨e, a, ⟨y1, -⟩, -, y3⟩ := s1 hc.1 hc.2
      obtain ⟨e', a', ⟨z1, -⟩, -, z3⟩ := r1 hc.1 hc.2
      have hx := hu n hc.1
      rw [hd] at hx y1
      rw [candidates_without hx, y1] at z1; cases z1
      rw [y3, z3]
    · have hc' : ¬ Mentions p.options n ∨ n ∈ xm.final := by
        by_cases hm : Mentions p.options n
        · exact .inr (Decidable.byContradiction fun hn => hc ⟨hm, hn⟩)
        · exact .inl hm
      rw [(s2 hc').2, (r2 hc').2]
  · rw [store_required h, store_required h', hd]
    dsimp only
    rw [required_without hn]

end Unused
open Unused

/-- **C133, stored.** If no name in a source can stand for the option `d`, storing it without `d` being declared succeeds or fails as before, with the same
exception; after a success every name other than that of `d` has the same record. -/
theorem C133_stored (p : Parsed) (pre post : List OptionDesc) (d : OptionDesc) (hd : p.desc = pre ++ d :: post)
    (hu : ∀ name, Mentions p.options name → d ∉ candidates p.desc name) (xm : VarMap) (u : Bool) :
    (store { p with desc := pre ++ post } xm u).2 = (store p xm u).2 ∧
    ∀ m m', store p xm u = (m, none) → store { p with desc := pre ++ post } xm u = (m', none) → ∀ n, n ≠ d.own →
      m'.map.get? n = m.map.get? n ∧ (n ∈ m'.final ↔ n ∈ m.final) ∧ m'.required.get? n = m.required.get? n :=
  ⟨outcome_without p pre post d hd hu xm u, fun m m' h h' n hn => by
    obtain ⟨h1, h2, h3⟩ := record_without p pre post d hd hu xm u m m' h h' n
    exact ⟨h1 (.inl hn), h2, h3 (.inl hn)⟩⟩

/-- If moreover `d` has no default and is not required, the map is the same. -/
theorem C133_same_map (p : Parsed) (pre post : List OptionDesc) (d : OptionDesc) (hd : p.desc = pre ++ d :: post)
    (hu : ∀ name, Mentions p.options name → d ∉ candidates p.desc name) (hdf : d.semantic.applyDefault = none) (hr : d.semantic.isRequired = false)
    (xm : VarMap) (hx : xm.Ordered) (u : Bool) (m : VarMap) :
    store { p with desc := pre ++ post } xm u = (m, none) ↔ store p xm u = (m, none) := by
  have key : ∀ m m', store p xm u = (m, none) → store { p with desc := pre ++ post } xm u = (m', none) → m' = m := by
    intro m m' h h'
    have o1 := ordered_store hx p u
    have o2 := ordered_store hx { p with desc := pre ++ post } u
    rw [h] at o1; rw [h'] at o2
    have hall := record_without p pre post d hd hu xm u m m' h h'
    exact ordered_ext o2 o1 (fun n => (hall n).1 (.inr hdf)) (fun n => (hall n).2.1) fun n => (hall n).2.2 (.inr hr)
  have ho := outcome_without p pre post d hd hu xm u
  constructor
  · intro h'
    have h : store p xm u = ((store p xm u).1, none) := Prod.ext rfl (by rw [← ho, h'])
    rw [h, key _ _ h h']
  · intro h
    have h' : store { p with desc := pre ++ post } xm u = ((store { p with desc := pre ++ post } xm u).1, none) := Prod.ext rfl (by rw [ho, h])
    rw [h', key _ _ h h']

/-- **C133, from the command line to the map.** If a command line is accepted with `d` declared, and nothing in the result goes by a name of `d`, then it is accepted
without `d` too, and storing what was read has the same outcome; every name other than that of `d` has the same record, and all have if `d` has no default. -/
theorem C133_program (c : Cmdline) (hs : c.styleParser = none) (pre post : List OptionDesc) (hdesc : c.desc = pre ++ post) (d : OptionDesc)
    (K : Str) (hK : CanonicalName d K) (hstar : ∀ n ∈ d.longNames, n.getLast? ≠ some '*')
    (hne : ∀ e ∈ pre ++ d :: post, ∀ name, name ≠ [] → reportedKey e name ≠ [])
    (hcase : active c.style Style.longCaseInsensitive = active c.style Style.shortCaseInsensitive)
    (hdis : ¬ Enabled c Style.allowLongDisguise) (hl : LettersApart c) (args : List Str) (hlen : args.length < 2147483648) (p : Parsed)
    (h : ({ c with desc := pre ++ d :: post } : Cmdline).parse args = .ok p) (hres : ∀ o ∈ p.options, o.stringKey ∉ d.longNames ∧ o.stringKey ≠ d.shortName)
    (xm : VarMap) (u : Bool) :
    ∃ p', c.parse args = .ok p' ∧ p'.options = p.options ∧ (store p' xm u).2 = (store p xm u).2 ∧
      ∀ m m', store p xm u = (m, none) → store p' xm u = (m', none) → ∀ n, n ≠ d.own ∨ d.semantic.applyDefault = none → m'.map.get? n = m.map.get? n := by
  cases hr : ({ c with desc := pre ++ d :: post } : Cmdline).run args with
  | error f => unfold Cmdline.parse at h; rw [hr] at h; cases h
  | ok res =>
    have hp : p = { desc := pre ++ d :: post, options := res, pre := c.canonicalPrefix } := by
      unfold Cmdline.parse at h; rw [hr] at h; cases h; rfl
    subst hp
    dsimp only at hres
    have hKd : K ∈ d.longNames ∨ K = d.shortName := by
      rcases hK with ⟨h1, -⟩ | ⟨-, h1⟩
      · exact .inl (List.mem_of_mem_head? h1)
      · exact .inr h1.symm
    have hrun := C133_unused c hs pre post hdesc d K hK hstar hne hcase hdis hl args hlen res hr (by
      intro o ho _ _ hk
      rcases hKd with h1 | h1
      · exact (hres o ho).1 (hk ▸ h1)
      · exact (hres o ho).2 (hk.trans h1))
    have hu : ∀ name, Mentions res name → d ∉ candidates (pre ++ d :: post) name := by
      rintro name ⟨o, ho, rfl, h0, -⟩ hm
      have : Exact d o.stringKey false false ∨ Approximate d o.stringKey false false := by
        unfold candidates at hm
        split at hm
        · exact .inl (by simpa using (List.mem_filter.1 hm).2)
        · have := (List.mem_filter.1 hm).2
          simp only [decide_eq_true_eq] at this
          exact .inr this.2
      rcases this with (⟨n, hn, -, he⟩ | he) | ⟨n, hn, -, ⟨ha, -⟩ | ⟨stem, he, -⟩⟩
      · exact (hres o ho).1 (by rw [show o.stringKey = n from he.symm]; exact hn)
      · exact (hres o ho).2 he.symm
      · cases ha
      · exact hstar n hn (by rw [show n = stem ++ ['*'] from he]; exact List.getLast?_concat)
    refine ⟨{ desc := pre ++ post, options := res, pre := c.canonicalPrefix }, ?_, rfl, ?_, ?_⟩
    · unfold Cmdline.parse; rw [hrun, hdesc]
    · exact outcome_without { desc := pre ++ d :: post, options := res, pre := c.canonicalPrefix } pre post d rfl hu xm u
    · intro m m' h1 h2 n hn
      exact (record_without { desc := pre ++ d :: post, options := res, pre := c.canonicalPrefix } pre post d rfl hu xm u m m' h1 h2 n).1 hn

/-- What a name of `d` can do: with a second option of the same name the store fails, and without `d` it succeeds. -/
theorem C133_shared_name : ∃ (p : Parsed) (d e : OptionDesc) (f : Fail) (m : VarMap), p.desc = [e, d] ∧ (store p {}).2 = some f ∧
    store { p with desc := [e] } {} = (m, none) :=
  ⟨{ desc := [Test.od "name" (Test.sem Test.vstr), Test.od "name" Test.unt], options := [{ stringKey := Test.L "name", value := [Test.L "x"], originalTokens := [] }] },
    _, _, _, _, rfl, rfl, rfl⟩

/-- Without the default of an unused option the other records are as before. -/
example : let o := Test.od "out" (Test.sem Test.vstr)
    let d := Test.od "mode" (Test.sem { Test.vstr with dflt := some (.scalar (.str (Test.L "slow")), Test.L "slow") })
    let p : Parsed := { desc := [o, d], options := [{ stringKey := Test.L "out", value := [Test.L "x"], originalTokens := [] }] }
    ((store p {}).1.map.map (·.1)) = [Test.L "mode", Test.L "out"] ∧ ((store { p with desc := [o] } {}).1.map.map (·.1)) = [Test.L "out"] :=
  ⟨rfl, rfl⟩

example (xm : VarMap) (hx : xm.Ordered) (u : Bool) (m : VarMap) :
    store { desc := [Test.od "out" (Test.sem Test.vstr)], options := [{ stringKey := Test.L "out", value := [Test.L "x"], originalTokens := [] }] } xm u = (m, none) ↔
      store { desc := [Test.od "out" (Test.sem Test.vstr), Test.od "in*" (Test.sem Test.vstr)], options := [{ stringKey := Test.L "out", value := [Test.L "x"], originalTokens := [] }] } xm u = (m, none) :=
  C133_same_map { desc := [Test.od "out" (Test.sem Test.vstr), Test.od "in*" (Test.sem Test.vstr)], options := [{ stringKey := Test.L "out", value := [Test.L "x"], originalTokens := [] }] }
    [Test.od "out" (Test.sem Test.vstr)] [] (Test.od "in*" (Test.sem Test.vstr)) rfl (by
      rintro name ⟨o, ho, rfl, -⟩ hm
      cases List.mem_singleton.1 ho
      have e : candidates [Test.od "out" (Test.sem Test.vstr), Test.od "in*" (Test.sem Test.vstr)] (Test.L "out") = [Test.od "out" (Test.sem Test.vstr)] := rfl
      have := congrArg OptionDesc.longNames (List.mem_singleton.1 (e ▸ hm))
      revert this; decide) rfl rfl xm hx u m

end PO
