import Verif.Lemmas.DeclOrder
import Verif.Props.Exception
import Verif.Props.Notify
import Verif.Props.StoreGrammar
import Verif.Model.Format
import Verif.Tests.Util
/-
C137: the order in which options are declared does not matter.
-/
namespace PO
open Spec

/-! ### C137 -/

namespace DeclOrder

theorem insertAll_perm {a b : List Str} (h : a.Perm b) : SSet.insertAll [] a = SSet.insertAll [] b := by
  refine SSet.ext (SSet.sorted_insertAll (by simp [SSet.Sorted]) _) (SSet.sorted_insertAll (by simp [SSet.Sorted]) _) fun x => ?_
  rw [SSet.mem_insertAll, SSet.mem_insertAll, h.mem_iff]

theorem what {e : OptErr} {alts alts' : List Str} (h : alts.Perm alts') (fuel : Nat) :
    OptErr.what fuel { e with cls := .ambiguousOption alts } = OptErr.what fuel { e with cls := .ambiguousOption alts' } := by
  have ht : ambiguousTemplate alts (ErrClass.ambiguousOption alts).template = ambiguousTemplate alts' (ErrClass.ambiguousOption alts').template := by
    unfold ambiguousTemplate
    dsimp only
    rw [insertAll_perm h, h.length_eq]
    rfl
  unfold OptErr.what
  dsimp only
  rw [ht]
  rfl

theorem allowed_eq (ds : List OptionDesc) (acc : SSet) :
    allowedNames ds acc = if [] ∈ ds.map OptionDesc.longName then .error (.error abbreviatedMsg) else .ok (SSet.insertAll acc (ds.map OptionDesc.longName)) := by
  induction ds generalizing acc with
  | nil => rfl
  | cons d ds ih =>
    rw [allowedNames, List.map_cons]
    by_cases h : d.longName = []
    · rw [if_pos h, if_pos (by simp [h])]
    · rw [if_neg h, ih]
      by_cases h' : [] ∈ ds.map OptionDesc.longName
      · rw [if_pos h', if_pos (List.mem_cons_of_mem _ h')]
      · rw [if_neg h', if_neg (fun hm => (List.mem_cons.1 hm).elim (fun e => h e.symm) h')]
        rfl

theorem allowed_perm {ds ds' : List OptionDesc} (h : ds.Perm ds') : allowedNames ds [] = allowedNames ds' [] := by
  rw [allowed_eq, allowed_eq, insertAll_perm (h.map _)]
  have := (h.map OptionDesc.longName).mem_iff (a := [])
  by_cases h1 : [] ∈ ds.map OptionDesc.longName
  · rw [if_pos h1, if_pos (this.1 h1)]
  · rw [if_neg h1, if_neg (fun h => h1 (this.2 h))]

/-- The same state, and the same exception but for the order of alternatives. -/
def UptoS {α : Type} (r r' : α × Option Fail) : Prop :=
  r.1 = r'.1 ∧ (r.2 = r'.2 ∨ ∃ f g, r.2 = some f ∧ r'.2 = some g ∧ SameButOrder f g)

theorem storeOne {ds ds' : List OptionDesc} (h : ds.Perm ds') (pre : Nat) (utf8 : Bool) (final : SSet) (m : SMap VarValue) (nf : SSet) (o : Opt) :
    UptoS (storeOne ds pre utf8 final m nf o) (storeOne ds' pre utf8 final m nf o) := by
  unfold PO.storeOne
  dsimp only
  split
  · exact ⟨rfl, .inl rfl⟩
  · split
    · exact ⟨rfl, .inl rfl⟩
    · split
      · exact ⟨rfl, .inl rfl⟩
      · unfold findOrThrow
        rcases (find _ _ h o.stringKey false false false).cases with ⟨d, h1, h2⟩ | ⟨f, g, h1, h2, h3⟩
        · rw [h1, h2]
          exact ⟨rfl, .inl rfl⟩
        · rw [h1, h2]
          exact ⟨rfl, .inr ⟨_, _, rfl, rfl, addContext h3 _ _ _⟩⟩

theorem storeLoop {ds ds' : List OptionDesc} (h : ds.Perm ds') (pre : Nat) (utf8 : Bool) (final : SSet) (os : List Opt) (m : SMap VarValue) (nf : SSet) :
    UptoS (storeLoop ds pre utf8 final os m nf) (storeLoop ds' pre utf8 final os m nf) := by
  induction os generalizing m nf with
  | nil => exact ⟨rfl, .inl rfl⟩
  | cons o os ih =>
    rw [PO.storeLoop, PO.storeLoop]
    have := storeOne h pre utf8 final m nf o
    revert this
    generalize PO.storeOne ds pre utf8 final m nf o = r
    generalize PO.storeOne ds' pre utf8 final m nf o = r'
    obtain ⟨⟨m1, n1⟩, f1⟩ := r
    obtain ⟨⟨m2, n2⟩, f2⟩ := r'
    rintro ⟨h1, h2⟩
    cases h1
    rcases h2 with h2 | ⟨f, g, h2, h3, h4⟩
    · cases h2
      cases f1 with
      | none => exact ih _ _
      | some f => exact ⟨rfl, .inl rfl⟩
    · cases h2
      cases h3
      exact ⟨rfl, .inr ⟨f, g, rfl, rfl, h4⟩⟩

theorem firstDefault_iff {ds : List OptionDesc} (hd : OwnApart ds) (name : Str) (q : ValueSemantic × Any) :
    firstDefault ds name = some q ↔ ∃ d ∈ ds, d.own = name ∧ name ≠ [] ∧ d.semantic.applyDefault.map (fun a => (d.semantic, a)) = some q := by
  unfold firstDefault
  induction ds with
  | nil => simp
  | cons d ds ih =>
    have hd' := List.pairwise_cons.1 hd
    rw [List.findSome?_cons]
    by_cases h : d.own = name ∧ name ≠ []
    · rw [if_pos h]
      cases ha : d.semantic.applyDefault with
      | some a =>
        rw [Option.map_some]
        dsimp only
        constructor
        · intro e
          exact ⟨d, List.mem_cons_self .., h.1, h.2, by rw [ha]; exact e⟩
        · rintro ⟨d', hm, h1, h2, h3⟩
          rcases List.mem_cons.1 hm with rfl | hm
          · rw [ha] at h3; exact h3
          · exact absurd (h.1.symm.trans (hd'.1 d' hm (h.1.trans h1.symm))) h.2
      | none =>
        rw [Option.map_none]
        dsimp only
        rw [ih hd'.2]
        constructor
        · rintro ⟨d', hm, hx⟩
          exact ⟨d', List.mem_cons_of_mem _ hm, hx⟩
        · rintro ⟨d', hm, h1, h2, h3⟩
          rcases List.mem_cons.1 hm with rfl | hm
          · rw [ha] at h3; cases h3
          · exact ⟨d', hm, h1, h2, h3⟩
    · rw [if_neg h]
      dsimp only
      rw [ih hd'.2]
      constructor
      · rintro ⟨d', hm, hx⟩
        exact ⟨d', List.mem_cons_of_mem _ hm, hx⟩
      · rintro ⟨d', hm, h1, h2, h3⟩
        rcases List.mem_cons.1 hm with rfl | hm
        · exact absurd ⟨h1, h2⟩ h
        · exact ⟨d', hm, h1, h2, h3⟩

theorem apart_perm {ds ds' : List OptionDesc} (h : ds.Perm ds') (hd : OwnApart ds) : OwnApart ds' :=
  h.pairwise hd (fun hab e => e.trans (hab e.symm))

theorem firstDefault_perm {ds ds' : List OptionDesc} (h : ds.Perm ds') (hd : OwnApart ds) (name : Str) : firstDefault ds name = firstDefault ds' name := by
  apply Option.ext
  intro q
  rw [firstDefault_iff hd, firstDefault_iff (apart_perm h hd)]
  exact ⟨fun ⟨d, hm, hx⟩ => ⟨d, h.mem_iff.1 hm, hx⟩, fun ⟨d, hm, hx⟩ => ⟨d, h.mem_iff.2 hm, hx⟩⟩

theorem filter_perm {ds ds' : List OptionDesc} (h : ds.Perm ds') (hd : OwnApart ds) (key : Str) :
    (ds.filter fun d => d.own = key ∧ key ≠ [] ∧ d.semantic.isRequired = true) = ds'.filter fun d => d.own = key ∧ key ≠ [] ∧ d.semantic.isRequired = true := by
  have hf := h.filter fun d => (decide (d.own = key ∧ key ≠ [] ∧ d.semantic.isRequired = true))
  have hl : (ds.filter fun d => decide (d.own = key ∧ key ≠ [] ∧ d.semantic.isRequired = true)).length ≤ 1 := by
    cases hx : (ds.filter fun d => decide (d.own = key ∧ key ≠ [] ∧ d.semantic.isRequired = true)) with
    | nil => simp
    | cons a t =>
      cases t with
      | nil => simp
      | cons b t =>
        have hp : OwnApart (a :: b :: t) := hx ▸ List.Pairwise.filter _ hd
        have ha : a ∈ ds.filter fun d => decide (d.own = key ∧ key ≠ [] ∧ d.semantic.isRequired = true) := by rw [hx]; simp
        have hb : b ∈ ds.filter fun d => decide (d.own = key ∧ key ≠ [] ∧ d.semantic.isRequired = true) := by rw [hx]; simp
        have ha := of_decide_eq_true (List.mem_filter.1 ha).2
        have hb := of_decide_eq_true (List.mem_filter.1 hb).2
        exact absurd (ha.1.symm.trans ((List.pairwise_cons.1 hp).1 b (by simp) (ha.1.trans hb.1.symm))) ha.2.1
  revert hf hl
  generalize (ds.filter fun d => decide (d.own = key ∧ key ≠ [] ∧ d.semantic.isRequired = true)) = a
  generalize (ds'.filter fun d => decide (d.own = key ∧ key ≠ [] ∧ d.semantic.isRequired = true)) = b
  intro hf hl
  match a, hl with
  | [], _ => exact (List.nil_perm.1 hf).symm
  | [x], _ => exact (List.singleton_perm.1 hf)

theorem applyAll_perm {ds ds' : List OptionDesc} (h : ds.Perm ds') (hd : OwnApart ds) (pre : Nat) (m : SMap VarValue) (req : SMap Str)
    (hm : SMap.Sorted m) (hr : SMap.Sorted req) : applyAll pre ds m req = applyAll pre ds' m req := by
  refine Prod.ext ?_ ?_
  · refine SMap.ext (applyAll_sorted _ _ _ _ hm) (applyAll_sorted _ _ _ _ hm) fun name => ?_
    rw [applyAll_get, applyAll_get, firstDefault_perm h hd]
  · refine SMap.ext (applyAll_required_sorted _ _ _ _ hr) (applyAll_required_sorted _ _ _ _ hr) fun name => ?_
    rw [applyAll_required, applyAll_required, filter_perm h hd]

end DeclOrder

open DeclOrder

/-- **C137**, the command line: with the options declared in another order it is accepted or refused alike, with the same options. -/
theorem C137_command_line (c : Cmdline) (D : List OptionDesc) (hp : c.desc.Perm D) (args : List Str) :
    (∀ r, c.run args = .ok r ↔ ({ c with desc := D } : Cmdline).run args = .ok r) ∧
    (∀ f, c.run args = .error f → ∃ g, ({ c with desc := D } : Cmdline).run args = .error g ∧ SameButOrder f g) := by
  rcases (DeclOrder.run hp args).cases with ⟨a, h1, h2⟩ | ⟨f, g, h1, h2, h3⟩
  · rw [h1, h2]
    exact ⟨fun r => Iff.rfl, fun f h => nomatch h⟩
  · rw [h1, h2]
    exact ⟨fun r => ⟨(fun h => nomatch h), (fun h => nomatch h)⟩, fun f' h => by cases h; exact ⟨g, rfl, h3⟩⟩

/-- The messages are the same, character by character. -/
theorem C137_message (e e' : OptErr) (h : SameButOrder (.opt e) (.opt e')) (fuel : Nat) : e.what fuel = e'.what fuel := by
  cases h with
  | refl => rfl
  | ambiguous x alts alts' hp => exact DeclOrder.what (e := x) hp fuel

/-- Configuration files are read alike, and refused with the same exception. -/
theorem C137_config_file (text : Str) (ds ds' : List OptionDesc) (hp : ds.Perm ds') (au : Bool) :
    (∀ os, parseConfigFile text ds au = .ok { desc := ds, options := os } ↔ parseConfigFile text ds' au = .ok { desc := ds', options := os }) ∧
    (∀ f, parseConfigFile text ds au = .error f ↔ parseConfigFile text ds' au = .error f) := by
  unfold parseConfigFile
  rw [allowed_perm hp]
  cases allowedNames ds' [] with
  | error f => exact ⟨fun os => ⟨(fun h => nomatch h), (fun h => nomatch h)⟩, fun _ => Iff.rfl⟩
  | ok allowed =>
    dsimp only
    cases ConfigIter.make allowed au with
    | error f => exact ⟨fun os => ⟨(fun h => nomatch h), (fun h => nomatch h)⟩, fun _ => Iff.rfl⟩
    | ok it =>
      dsimp only
      cases it.lines [] (getlines '\n' text) with
      | error f => exact ⟨fun os => ⟨(fun h => nomatch h), (fun h => nomatch h)⟩, fun _ => Iff.rfl⟩
      | ok os' =>
        refine ⟨fun os => ⟨fun h => by cases h; rfl, fun h => by cases h; rfl⟩, fun f => ⟨(fun h => nomatch h), (fun h => nomatch h)⟩⟩

/-- Storing has the same effect and the same outcome, if no two options share the name under which defaults are kept. -/
theorem C137_store (p : Parsed) (D : List OptionDesc) (hp : p.desc.Perm D) (hd : OwnApart p.desc) (xm : VarMap) (hx : xm.Ordered) (utf8 : Bool) :
    (store { p with desc := D } xm utf8).1 = (store p xm utf8).1 ∧
    ((store { p with desc := D } xm utf8).2 = (store p xm utf8).2 ∨
      ∃ f g, (store p xm utf8).2 = some f ∧ (store { p with desc := D } xm utf8).2 = some g ∧ SameButOrder f g) := by
  unfold store
  dsimp only
  have hl := DeclOrder.storeLoop hp p.pre utf8 xm.final p.options xm.map []
  have hs := storeLoop_sorted p.desc p.pre utf8 xm.final p.options xm.map [] hx.map
  revert hl hs
  generalize PO.storeLoop p.desc p.pre utf8 xm.final p.options xm.map [] = r
  generalize PO.storeLoop D p.pre utf8 xm.final p.options xm.map [] = r'
  obtain ⟨⟨m1, n1⟩, f1⟩ := r
  obtain ⟨⟨m2, n2⟩, f2⟩ := r'
  rintro ⟨h1, h2⟩ hs
  cases h1
  rcases h2 with h2 | ⟨f, g, h2, h3, h4⟩
  · cases h2
    cases f1 with
    | none =>
      dsimp only
      rw [applyAll_perm hp hd p.pre m1 xm.required hs hx.required]
      exact ⟨rfl, .inl rfl⟩
    | some f => exact ⟨rfl, .inl rfl⟩
  · cases h2
    cases h3
    exact ⟨rfl, .inr ⟨f, g, rfl, rfl, h4⟩⟩

/-- From the command line to the map: the same map. -/
theorem C137_end_to_end (c : Cmdline) (D : List OptionDesc) (hp : c.desc.Perm D) (hd : OwnApart c.desc) (args : List Str) (p : Parsed)
    (h : c.parse args = .ok p) (xm : VarMap) (hx : xm.Ordered) (m : VarMap) (hm : store p xm = (m, none)) :
    ∃ p', ({ c with desc := D } : Cmdline).parse args = .ok p' ∧ store p' xm = (m, none) := by
  unfold Cmdline.parse at h ⊢
  cases hr : c.run args with
  | error f => rw [hr] at h; cases h
  | ok os =>
    rw [hr] at h
    cases h
    rw [((C137_command_line c D hp args).1 os).1 hr]
    refine ⟨_, rfl, ?_⟩
    obtain ⟨h1, h2⟩ := C137_store { desc := c.desc, options := os, pre := c.canonicalPrefix } D hp hd xm hx false
    rw [hm] at h1 h2
    refine Prod.ext h1 ?_
    rcases h2 with h2 | ⟨f, g, h2, _⟩
    · exact h2
    · cases h2

/-- Two options of the same name. -/
def Ex.levelOne : OptionDesc := Test.od "level" (Test.sem { Test.vstr with dflt := some (.scalar (.str ['1']), ['1']) })
def Ex.levelTwo : OptionDesc := Test.od "level" (Test.sem { Test.vstr with dflt := some (.scalar (.str ['2']), ['2']) })

/-- The condition is needed: of two options with the same name and different defaults the first declared gives the default. -/
theorem C137_needed : ∃ (ds ds' : List OptionDesc), ds.Perm ds' ∧ ¬ OwnApart ds ∧
    ((store { desc := ds, options := [] } {}).1.get (str% "level")).v ≠ ((store { desc := ds', options := [] } {}).1.get (str% "level")).v := by
  refine ⟨[Ex.levelOne, Ex.levelTwo], [Ex.levelTwo, Ex.levelOne], List.Perm.swap _ _ _, ?_, ?_⟩
  · intro h
    exact absurd ((List.pairwise_cons.1 h).1 _ (List.mem_singleton.2 rfl) rfl) (by decide)
  · decide

namespace DeclOrder

theorem maxLeft_perm {ds ds' : List OptionDesc} (h : ds.Perm ds') (w r : Nat) (hr : maxLeft ds w = .ok r) : maxLeft ds' w = .ok r := by
  induction h generalizing w with
  | nil => exact hr
  | cons d _ ih =>
    rw [maxLeft] at hr ⊢
    cases hd : d.leftColumn with
    | error f => rw [hd] at hr; cases hr
    | ok t => rw [hd] at hr; exact ih _ hr
  | swap a b l =>
    rw [maxLeft] at hr ⊢
    cases hb : b.leftColumn with
    | error f => rw [hb] at hr; cases hr
    | ok u =>
      rw [hb] at hr
      dsimp only at hr
      rw [maxLeft] at hr
      cases ha : a.leftColumn with
      | error g => rw [ha] at hr; cases hr
      | ok t =>
        rw [ha] at hr
        dsimp only at hr ⊢
        rw [maxLeft, hb, ← hr]
        dsimp only
        congr 1
        omega
  | trans _ _ ih1 ih2 => exact ih2 _ (ih1 _ hr)

/-- The text for one option. -/
def entry (w l : Nat) (d : OptionDesc) : Str :=
  match formatOne d w l with
  | .ok t => t
  | .error _ => []

theorem formatOptions_ok (w l : Nat) (ds : List OptionDesc) (t : Str) : formatOptions w l ds = .ok t ↔
    (∀ d ∈ ds, ∃ t, formatOne d w l = .ok t) ∧ t = ds.flatMap fun d => entry w l d ++ ['\n'] := by
  induction ds generalizing t with
  | nil =>
    rw [formatOptions]
    exact ⟨fun h => by cases h; exact ⟨fun _ h => absurd h List.not_mem_nil, rfl⟩, fun ⟨_, h⟩ => by rw [h]; rfl⟩
  | cons d ds ih =>
    rw [formatOptions]
    cases hd : formatOne d w l with
    | error f =>
      refine ⟨(fun h => nomatch h), fun ⟨h, _⟩ => ?_⟩
      obtain ⟨t, ht⟩ := h d (List.mem_cons_self ..)
      rw [hd] at ht
      cases ht
    | ok u =>
      have he : entry w l d = u := by unfold entry; rw [hd]
      dsimp only
      cases hs : formatOptions w l ds with
      | error f =>
        refine ⟨(fun h => nomatch h), fun ⟨h, _⟩ => ?_⟩
        have := (ih _).2 ⟨fun d hd => h d (List.mem_cons_of_mem _ hd), rfl⟩
        rw [hs] at this
        cases this
      | ok ts =>
        have h1 := (ih ts).1 hs
        dsimp only
        rw [List.flatMap_cons, he, ← h1.2]
        constructor
        · intro h
          cases h
          refine ⟨fun e he => ?_, by simp⟩
          rcases List.mem_cons.1 he with rfl | he
          · exact ⟨u, hd⟩
          · exact h1.1 e he
        · rintro ⟨_, rfl⟩
          simp

theorem ownOptions_eq (ds : List OptionDesc) (bs : List Bool) : ownOptions ds bs = ((ds.zip bs).filter (!·.2)).map (·.1) := by
  induction ds generalizing bs with
  | nil => cases bs <;> rfl
  | cons d ds ih =>
    cases bs with
    | nil => rfl
    | cons b bs =>
      rw [ownOptions, List.zip_cons_cons, List.filter_cons]
      cases b <;> simp [ih]

end DeclOrder

/-- The help has the same entries, character by character, and only their order is another one. -/
theorem C137_help (o : OptionsDesc) (D : List OptionDesc) (B : List Bool) (hl : o.options.length = o.belong.length) (hl' : D.length = B.length)
    (hp : (o.options.zip o.belong).Perm (D.zip B)) (width : Nat) (t : Str) (h : o.print width = .ok t) :
    ∃ (entry : OptionDesc → Str) (before after : Str), t = before ++ (ownOptions o.options o.belong).flatMap entry ++ after ∧
      ({ o with options := D, belong := B } : OptionsDesc).print width = .ok (before ++ (ownOptions D B).flatMap entry ++ after) ∧
      (ownOptions o.options o.belong).Perm (ownOptions D B) := by
  obtain ⟨caption, lineLength, minDescLen, options, belong, groups⟩ := o
  dsimp only at hl hp ⊢
  have hopt : options.Perm D := by
    have := hp.map Prod.fst
    rwa [List.map_fst_zip (by omega), List.map_fst_zip (by omega)] at this
  have hown : (ownOptions options belong).Perm (ownOptions D B) := by
    rw [ownOptions_eq, ownOptions_eq]
    exact (hp.filter _).map _
  have key : ∀ w, printWidth w ⟨caption, lineLength, minDescLen, options, belong, groups⟩ = .ok t →
      ∃ (entry : OptionDesc → Str) (before after : Str), t = before ++ (ownOptions options belong).flatMap entry ++ after ∧
        printWidth w ⟨caption, lineLength, minDescLen, D, B, groups⟩ = .ok (before ++ (ownOptions D B).flatMap entry ++ after) := by
    intro w hw
    rw [printWidth] at hw
    rw [printWidth]
    cases hf : formatOptions w lineLength (ownOptions options belong) with
    | error f => rw [hf] at hw; cases hw
    | ok body =>
      rw [hf] at hw
      dsimp only at hw
      obtain ⟨h1, h2⟩ := (formatOptions_ok _ _ _ _).1 hf
      rw [(formatOptions_ok w lineLength (ownOptions D B) _).2 ⟨fun d hd => h1 d (hown.mem_iff.2 hd), rfl⟩]
      cases hg : printGroups w groups with
      | error f => rw [hg] at hw; cases hw
      | ok gs =>
        rw [hg] at hw
        cases hw
        exact ⟨_, _, gs, by rw [h2], rfl⟩
  unfold OptionsDesc.print at h ⊢
  by_cases h0 : width = 0
  · rw [if_pos h0] at h ⊢
    cases hw : columnWidth ⟨caption, lineLength, minDescLen, options, belong, groups⟩ with
    | error f => rw [hw] at h; cases h
    | ok w =>
      have hw' : columnWidth ⟨caption, lineLength, minDescLen, D, B, groups⟩ = .ok w := by
        rw [columnWidth] at hw ⊢
        cases hm : maxLeft options 23 with
        | error f => rw [hm] at hw; cases hw
        | ok r => rw [hm] at hw; rw [maxLeft_perm hopt 23 r hm]; exact hw
      rw [hw] at h
      rw [hw']
      obtain ⟨e, b, a, h1, h2⟩ := key w h
      exact ⟨e, b, a, h1, h2, hown⟩
  · rw [if_neg h0] at h ⊢
    obtain ⟨e, b, a, h1, h2⟩ := key width h
    exact ⟨e, b, a, h1, h2, hown⟩

/-- Two options whose names begin alike, in both orders: the same command lines are read, and an ambiguous name gives the same message. -/
example : [Test.od "size" (Test.sem Test.vstr), Test.od "silent" Test.unt].Perm [Test.od "silent" Test.unt, Test.od "size" (Test.sem Test.vstr)] ∧
    OwnApart [Test.od "size" (Test.sem Test.vstr), Test.od "silent" Test.unt] ∧
    (({ desc := [Test.od "size" (Test.sem Test.vstr), Test.od "silent" Test.unt], style := Style.defaultStyle ||| Style.allowGuessing } : Cmdline).run [Test.L "--sil"]).toOption.isSome ∧
    SameButOrder (.opt (OptErr.mk' (.ambiguousOption [Test.L "size", Test.L "silent"]) (Test.L "si")))
      (.opt (OptErr.mk' (.ambiguousOption [Test.L "silent", Test.L "size"]) (Test.L "si"))) :=
  ⟨List.Perm.swap _ _ _, List.pairwise_cons.2 ⟨by decide, List.pairwise_singleton _ _⟩, by rfl,
    .ambiguous (OptErr.mk' .unknownOption (Test.L "si")) _ _ (List.Perm.swap _ _ _)⟩

end PO
