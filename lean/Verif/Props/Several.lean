import Verif.Spec.Several
import Verif.Props.Program
/-
C104: any number of sources, name by name.
-/
namespace PO
open Spec

theorem Spec.Settled.det {name : Str} {srcs : List (Parsed × Bool)} {r r1 r2} (h1 : Settled name srcs r r1) (h2 : Settled name srcs r r2) : r1 = r2 := by
  induction h1 with
  | done => cases h2; rfl
  | silent hm _ ih =>
    cases h2 with
    | silent _ h => exact ih h
    | adds hm' => exact absurd hm' hm
    | settles hm' => exact absurd hm' hm
  | adds hm hd ha hc _ ih =>
    cases h2 with
    | silent hm' => exact absurd hm hm'
    | adds _ hd' ha' _ h =>
      rw [hd] at hd'; cases hd'
      rw [ha] at ha'; cases ha'
      exact ih h
    | settles _ hd' _ hc' =>
      rw [hd] at hd'; cases hd'
      rw [hc] at hc'; cases hc'
  | settles hm hd ha hc =>
    cases h2 with
    | silent hm' => exact absurd hm hm'
    | adds _ hd' _ hc' =>
      rw [hd] at hd'; cases hd'
      rw [hc] at hc'; cases hc'
    | settles _ hd' ha' _ =>
      rw [hd] at hd'; cases hd'
      rw [ha] at ha'; cases ha'
      rfl

theorem given_record {m : VarMap} {name : Str} {r dflt} (h : m.map.get? name = record r dflt) : given m name = r.bind (·.2) := by
  unfold given
  rw [h]
  unfold record
  rcases r with _ | ⟨s, a⟩
  · rcases dflt with _ | ⟨s, a⟩ <;> simp
  · simp

/-- The step of one source on a name that is not final. -/
theorem store_record {p : Parsed} {u : Bool} {m m1 : VarMap} (h : store p m u = (m1, none)) {name : Str} {r dflt} (hr : m.map.get? name = record r dflt)
    (hf : name ∉ m.final) :
    (¬ Mentions p.options name ∧ m1.map.get? name = record r (dflt.or (firstDefault p.desc name)) ∧ name ∉ m1.final) ∨
    ∃ d a, Mentions p.options name ∧ candidates p.desc name = [d] ∧
      parseAll d.semantic u (r.bind (·.2)) ((occurrences p.options name).map (·.value)) = .ok a ∧
      (∀ dflt', m1.map.get? name = record (some (d.semantic, a)) dflt') ∧ (name ∈ m1.final ↔ d.semantic.isComposing = false) := by
  obtain ⟨h1, h2⟩ := C65_result p m m1 u h name
  by_cases hm : Mentions p.options name
  · right
    obtain ⟨d, a, ⟨hd, ha⟩, hv, hfin⟩ := h1 hm hf
    rw [given_record hr] at ha
    exact ⟨d, a, hm, hd, ha, fun _ => hv, hfin⟩
  · left
    obtain ⟨hv, hfin⟩ := h2 (.inl hm)
    refine ⟨hm, ?_, fun hx => hf (hfin.1 hx)⟩
    rw [hv, hr]
    unfold record
    rcases r with _ | ⟨s, a⟩
    · rcases dflt with _ | ⟨s, a⟩
      · cases hfd : firstDefault p.desc name with
        | none => rfl
        | some q => rfl
      · rfl
    · rfl

theorem stores_final {srcs : List (Parsed × Bool)} {m m' : VarMap} (h : Stores m srcs m') {name : Str} (hf : name ∈ m.final) {v : VarValue}
    (hv : m.map.get? name = some v) : m'.map.get? name = some v := by
  induction h with
  | nil => exact hv
  | cons h _ ih =>
    obtain ⟨-, h2⟩ := C65_result _ _ _ _ h name
    obtain ⟨h3, h4⟩ := h2 (.inr hf)
    rw [hv] at h3
    exact ih (h4.2 hf) h3

theorem defaultFrom_cons (p : Parsed) (u : Bool) (rest : List (Parsed × Bool)) (name : Str) :
    defaultFrom ((p, u) :: rest) name = (firstDefault p.desc name).or (defaultFrom rest name) := by
  rw [defaultFrom, List.findSome?_cons]
  cases firstDefault p.desc name <;> rfl

theorem stores_settled {srcs : List (Parsed × Bool)} {m m' : VarMap} (h : Stores m srcs m') {name : Str} {r dflt}
    (hr : m.map.get? name = record r dflt) (hf : name ∉ m.final) :
    ∃ r', Settled name srcs r r' ∧ m'.map.get? name = record r' (dflt.or (defaultFrom srcs name)) := by
  induction h generalizing r dflt with
  | nil => exact ⟨r, .done r, by simpa [defaultFrom] using hr⟩
  | @cons m m1 m2 p u rest h t ih =>
    rcases store_record h hr hf with ⟨hm, h1, h2⟩ | ⟨d, a, hm, hd, ha, h1, h2⟩
    · obtain ⟨r', h3, h4⟩ := ih h1 h2
      refine ⟨r', .silent hm h3, ?_⟩
      rw [h4, defaultFrom_cons, Option.or_assoc]
    · cases hc : d.semantic.isComposing with
      | true =>
        obtain ⟨r', h3, h4⟩ := ih (h1 (dflt.or (firstDefault p.desc name))) (fun hx => by rw [h2.1 hx] at hc; cases hc)
        refine ⟨r', .adds hm hd ha hc h3, ?_⟩
        rw [h4, defaultFrom_cons, Option.or_assoc]
      | false =>
        refine ⟨_, .settles hm hd ha hc, ?_⟩
        exact stores_final t (h2.2 hc) (h1 none)

theorem settled_stores (srcs : List (Parsed × Bool)) (m : VarMap) (hr : ∀ name, name ∉ m.final → ∃ r dflt, m.map.get? name = record r dflt ∧ ∃ r', Settled name srcs r r') :
    ∃ m', Stores m srcs m' := by
  induction srcs generalizing m with
  | nil => exact ⟨m, .nil m⟩
  | cons q rest ih =>
    obtain ⟨p, u⟩ := q
    have h2 : (store p m u).2 = none := by
      rw [C65_succeeds]
      intro name hm hf
      obtain ⟨r, dflt, h1, r', h2⟩ := hr name hf
      cases h2 with
      | silent hm' => exact absurd hm hm'
      | adds _ hd ha => exact ⟨_, _, hd, by rw [given_record h1]; exact ha⟩
      | settles _ hd ha => exact ⟨_, _, hd, by rw [given_record h1]; exact ha⟩
    have he : store p m u = ((store p m u).1, none) := Prod.ext rfl h2
    obtain ⟨m', h3⟩ := ih (store p m u).1 (by
      intro name hf'
      have hf : name ∉ m.final := by
        intro hf
        exact hf' (((C65_result p m _ u he name).2 (.inr hf)).2.2 hf)
      obtain ⟨r, dflt, h1, r', h4⟩ := hr name hf
      rcases store_record he h1 hf with ⟨hm, h5, -⟩ | ⟨d, a, hm, hd, ha, h5, h6⟩
      · cases h4 with
        | silent _ h => exact ⟨_, _, h5, _, h⟩
        | adds hm' => exact absurd hm' hm
        | settles hm' => exact absurd hm' hm
      · cases h4 with
        | silent hm' => exact absurd hm hm'
        | adds _ hd' ha' _ h =>
          rw [hd] at hd'; cases hd'
          rw [ha] at ha'; cases ha'
          exact ⟨_, _, h5 none, _, h⟩
        | settles _ hd' _ hc =>
          rw [hd] at hd'; cases hd'
          exact absurd (h6.2 hc) hf')
    exact ⟨m', .cons he h3⟩

/-- **C104.** Storing sources one after the other succeeds exactly if each name, taken alone, comes to a value; -/
theorem C104_succeeds (srcs : List (Parsed × Bool)) : (∃ m, Stores {} srcs m) ↔ ∀ name, ∃ r, Settled name srcs none r := by
  constructor
  · rintro ⟨m, h⟩ name
    obtain ⟨r, h1, -⟩ := stores_settled h (r := none) (dflt := none) (name := name) rfl (by simp)
    exact ⟨r, h1⟩
  · intro h
    exact settled_stores srcs {} fun name _ => ⟨none, none, rfl, h name⟩

/-- and then the map has this value for the name, or else the default of the first source whose description has one, and no record if neither. -/
theorem C104_value (srcs : List (Parsed × Bool)) (m : VarMap) (h : Stores {} srcs m) (name : Str) :
    ∃ r, Settled name srcs none r ∧ m.map.get? name = record r (defaultFrom srcs name) := by
  obtain ⟨r, h1, h2⟩ := stores_settled h (r := none) (dflt := none) (name := name) rfl (by simp)
  exact ⟨r, h1, by simpa using h2⟩

/-- A name that no source mentions has no explicit value; -/
theorem settled_silent {name : Str} {srcs : List (Parsed × Bool)} (h : ∀ q ∈ srcs, ¬ Mentions q.1.options name) (r) : Settled name srcs r r := by
  induction srcs with
  | nil => exact .done r
  | cons q rest ih => exact .silent (h q (by simp)) (ih fun x hx => h x (by simp [hx]))

theorem settled_skip {name : Str} {before rest : List (Parsed × Bool)} (h : ∀ q ∈ before, ¬ Mentions q.1.options name) {r r'} (hr : Settled name rest r r') :
    Settled name (before ++ rest) r r' := by
  induction before with
  | nil => exact hr
  | cons q before ih => exact .silent (h q (by simp)) (ih fun x hx => h x (by simp [hx]))

/-- one that a single source mentions has the value this source gives it, wherever it stands among the others. -/
theorem C104_only_source (before after : List (Parsed × Bool)) (q : Parsed × Bool) (m : VarMap) (h : Stores {} (before ++ q :: after) m) (name : Str)
    (hm : Mentions q.1.options name) (hb : ∀ x ∈ before, ¬ Mentions x.1.options name) (ha : ∀ x ∈ after, ¬ Mentions x.1.options name) :
    ∃ d a, candidates q.1.desc name = [d] ∧ parseAll d.semantic q.2 none ((occurrences q.1.options name).map (·.value)) = .ok a ∧
      m.map.get? name = some { v := a, defaulted := false, semantic := some d.semantic } := by
  obtain ⟨r, h1, h2⟩ := C104_value _ m h name
  have h3 : ∃ r', Settled name (q :: after) none r' := by
    clear h h2
    induction before with
    | nil => exact ⟨r, h1⟩
    | cons x before ih =>
      cases h1 with
      | silent _ h => exact ih (fun y hy => hb y (by simp [hy])) h
      | adds hm' => exact absurd hm' (hb x (by simp))
      | settles hm' => exact absurd hm' (hb x (by simp))
  obtain ⟨r', h4⟩ := h3
  have h5 := h1.det (settled_skip hb h4)
  subst h5
  cases h4 with
  | silent hm' => exact absurd hm hm'
  | adds _ hd hp _ h =>
    have := h.det (settled_silent ha _)
    subst this
    exact ⟨_, _, hd, hp, h2⟩
  | settles _ hd hp _ => exact ⟨_, _, hd, hp, h2⟩

/-! ### Order of sources -/

theorem settled_perm {name : Str} {srcs srcs' : List (Parsed × Bool)} (hp : srcs.Perm srcs')
    (hone : srcs.Pairwise fun a b => ¬ (Mentions a.1.options name ∧ Mentions b.1.options name)) {r r'} (h : Settled name srcs r r') :
    Settled name srcs' r r' := by
  induction hp generalizing r with
  | nil => exact h
  | cons x hp ih =>
    have hone' := (List.pairwise_cons.1 hone).2
    cases h with
    | silent hm h => exact .silent hm (ih hone' h)
    | adds hm hd ha hc h => exact .adds hm hd ha hc (ih hone' h)
    | settles hm hd ha hc => exact .settles hm hd ha hc
  | swap x y l =>
    have hxy : ¬ (Mentions y.1.options name ∧ Mentions x.1.options name) := (List.pairwise_cons.1 hone).1 x (by simp)
    have hy : Mentions y.1.options name → ∀ z ∈ x :: l, ¬ Mentions z.1.options name := fun hm z hz hz' => (List.pairwise_cons.1 hone).1 z hz ⟨hm, hz'⟩
    cases h with
    | silent hm h =>
      cases h with
      | silent hm' h => exact .silent hm' (.silent hm h)
      | adds hm' hd ha hc h => exact .adds hm' hd ha hc (.silent hm h)
      | settles hm' hd ha hc => exact .settles hm' hd ha hc
    | adds hm hd ha hc h =>
      cases h with
      | silent hm' h => exact .silent hm' (.adds hm hd ha hc h)
      | adds hm' => exact absurd ⟨hm, hm'⟩ hxy
      | settles hm' => exact absurd ⟨hm, hm'⟩ hxy
    | settles hm hd ha hc => exact .silent (hy hm x (by simp)) (.settles hm hd ha hc)
  | trans hp1 _ ih1 ih2 =>
    refine ih2 ?_ (ih1 hone h)
    exact hp1.pairwise_iff (by intro a b h1 h2; exact h1 h2.symm) |>.1 hone

/-- **C104, order.** Sources with the same description of which no two mention the same name may be stored in any order: if it works in one, it works
in each, with the same records. -/
theorem C104_any_order (desc : List OptionDesc) (srcs srcs' : List (Parsed × Bool)) (hp : srcs.Perm srcs') (hd : ∀ q ∈ srcs, q.1.desc = desc)
    (hone : ∀ name, srcs.Pairwise fun a b => ¬ (Mentions a.1.options name ∧ Mentions b.1.options name)) (m : VarMap) (h : Stores {} srcs m) :
    ∃ m', Stores {} srcs' m' ∧ ∀ name, m'.map.get? name = m.map.get? name := by
  obtain ⟨m', h'⟩ := (C104_succeeds srcs').2 fun name => by
    obtain ⟨r, h1⟩ := (C104_succeeds srcs).1 ⟨m, h⟩ name
    exact ⟨r, settled_perm hp (hone name) h1⟩
  refine ⟨m', h', fun name => ?_⟩
  obtain ⟨r, h1, h2⟩ := C104_value _ _ h name
  obtain ⟨r', h3, h4⟩ := C104_value _ _ h' name
  have := (settled_perm hp (hone name) h1).det h3
  subst this
  rw [h2, h4]
  congr 1
  have key : ∀ l : List (Parsed × Bool), (∀ q ∈ l, q.1.desc = desc) → defaultFrom l name = if l = [] then none else firstDefault desc name := by
    intro l hl
    induction l with
    | nil => rfl
    | cons q l ih =>
      rw [defaultFrom, List.findSome?_cons, hl q (by simp), if_neg (by simp)]
      cases hf : firstDefault desc name with
      | some x => rfl
      | none =>
        have := ih fun x hx => hl x (by simp [hx])
        rw [hf, ite_self] at this
        exact this
  rw [key srcs hd, key srcs' fun q hq => hd q (hp.mem_iff.2 hq)]
  by_cases hn : srcs = []
  · subst hn; rw [List.nil_perm.1 hp]
  · rw [if_neg hn, if_neg (fun h => hn (by subst h; exact List.perm_nil.1 hp))]

/-! ### Variables of the program -/

theorem settled_option {name : Str} {srcs : List (Parsed × Bool)} {r r'} (h : Settled name srcs r r') {s a} (hr : r' = some (s, a)) :
    r = some (s, a) ∨ ∃ q ∈ srcs, ∃ d, Mentions q.1.options name ∧ candidates q.1.desc name = [d] ∧ s = d.semantic := by
  induction h with
  | done r => exact .inl hr
  | silent _ _ ih =>
    rcases ih hr with h | ⟨q, hq, h⟩
    · exact .inl h
    · exact .inr ⟨q, by simp [hq], h⟩
  | @adds q _ _ _ d _ hm hd _ _ _ ih =>
    rcases ih hr with h | ⟨q', hq, h⟩
    · cases h; exact .inr ⟨q, by simp, d, hm, hd, rfl⟩
    · exact .inr ⟨q', by simp [hq], h⟩
  | @settles q _ _ d _ hm hd _ _ => cases hr; exact .inr ⟨q, by simp, d, hm, hd, rfl⟩

theorem candidates_desc {desc : List OptionDesc} {name : Str} {d : OptionDesc} (h : candidates desc name = [d]) : d ∈ desc := by
  have : d ∈ candidates desc name := by rw [h]; exact List.mem_singleton.2 rfl
  unfold candidates exacts approximates at this
  split at this <;> exact (List.mem_filter.1 this).1

theorem defaultFrom_option {srcs : List (Parsed × Bool)} {name : Str} {s : ValueSemantic} {a : Any} (h : defaultFrom srcs name = some (s, a)) :
    ∃ q ∈ srcs, ∃ d ∈ q.1.desc, d.own = name ∧ s = d.semantic := by
  unfold defaultFrom at h
  obtain ⟨l1, q, l2, e, hq, -⟩ := List.findSome?_eq_some_iff.1 h
  unfold firstDefault at hq
  obtain ⟨k1, d, k2, e', hd, -⟩ := List.findSome?_eq_some_iff.1 hq
  split at hd
  · rename_i hk
    cases ha : d.semantic.applyDefault with
    | none => rw [ha] at hd; cases hd
    | some b =>
      rw [ha] at hd
      cases hd
      exact ⟨q, by rw [e]; simp, d, by rw [e']; simp, hk.1, rfl⟩
  · cases hd

/-- Every record after any number of sources belongs to a declared option. -/
theorem stores_option {srcs : List (Parsed × Bool)} {m : VarMap} (h : Stores {} srcs m) {k : Str} {v : VarValue} (hv : m.map.get? k = some v) :
    ∃ q ∈ srcs, ∃ d ∈ q.1.desc, v.semantic = some d.semantic ∧ (Mentions q.1.options k ∧ candidates q.1.desc k = [d] ∨ d.own = k) := by
  obtain ⟨r, h1, h2⟩ := C104_value srcs m h k
  rw [hv] at h2
  rcases r with _ | ⟨s, a⟩
  · cases hd : defaultFrom srcs k with
    | none => rw [hd] at h2; cases h2
    | some q =>
      obtain ⟨s, a⟩ := q
      rw [hd] at h2
      obtain ⟨q, hq, d, hdd, hk, hs⟩ := defaultFrom_option hd
      exact ⟨q, hq, d, hdd, by rw [Option.some.inj h2, hs], .inr hk⟩
  · rcases settled_option h1 rfl with h3 | ⟨q, hq, d, hm, hd, hs⟩
    · cases h3
    · exact ⟨q, hq, d, candidates_desc hd, by rw [Option.some.inj h2, hs], .inl ⟨hm, hd⟩⟩

theorem stores_ordered {srcs : List (Parsed × Bool)} {m m' : VarMap} (h : Stores m srcs m') (ho : m.Ordered) : m'.Ordered := by
  induction h with
  | nil => exact ho
  | @cons _ _ _ p u _ h _ ih =>
    have := ordered_store ho p u
    rw [h] at this
    exact ih this

/-- **C104, the program.** A variable bound to one option is assigned exactly once by `notify`: the value the sources settled on, or the default; it is
not touched if there is neither. -/
theorem C104_variable (env : Env) (srcs : List (Parsed × Bool)) (m : VarMap) (h : Stores {} srcs m) (es : List Event) (hn : m.notify = (es, none))
    (name : Str) (addr : Nat) (d : OptionDesc) (hd : ∃ q ∈ srcs, d ∈ q.1.desc) (hb : ∀ q ∈ srcs, Bound env q.1 name addr d) :
    ∃ r, Settled name srcs none r ∧ assigned addr es = ((record r (defaultFrom srcs name)).bind (·.v)).toList := by
  obtain ⟨r, h1, h2⟩ := C104_value srcs m h name
  refine ⟨r, h1, ?_⟩
  rw [← h2]
  have hl : VarMap.notifyLoop m.map = (es, none) := by
    unfold VarMap.notify at hn
    split at hn
    · cases hn
    · exact hn
  have ho : m.map.Sorted := (stores_ordered h ordered_empty).map
  refine assigned_loop addr name m.map ho ?_ ?_ es hl
  · intro k v hk hne e he
    obtain ⟨q, hq, d', hd', h3, h4⟩ := stores_option h ((SMap.get?_eq_some ho k v).2 hk)
    have hne' : d' ≠ d := by
      rintro rfl
      rcases h4 with ⟨hm, hc⟩ | hk'
      · exact hne ((hb q hq).mentioned k hm hc)
      · exact hne (hk' ▸ ((hb q hq).named d' hd').2 rfl)
    exact assigned_delivers he addr h3 ((hb q hq).others d' hd' hne')
  · intro v hk e he
    obtain ⟨q, hq, d', hd', h3, h4⟩ := stores_option h ((SMap.get?_eq_some ho name v).2 hk)
    have hdd : d' = d := by
      rcases h4 with ⟨hm, hc⟩ | hk'
      · have := (hb q hq).meant hm
        rw [hc] at this; cases this; rfl
      · exact ((hb q hq).named d' hd').1 hk'
    subst hdd
    obtain ⟨t, ht, hst⟩ := (hb q hq).typed
    exact assigned_delivers_bound he addr h3 ht hst

/-! A program with three sources: command line, environment and configuration file. -/

def Ex.threeDesc : List OptionDesc :=
  [Test.od "name" (Test.sem { Test.vstr with storeTo := some 1 }), Test.od "inc" (Test.sem { Test.vvec with composing := true, storeTo := some 2 }),
   Test.od "mode" (Test.sem { Test.vstr with storeTo := some 3, dflt := some (.scalar (.str (Test.L "slow")), Test.L "slow") })]

def Ex.got (e : Except Fail Parsed) : Parsed := match e with | .ok p => p | .error _ => { desc := [], options := [] }
def Ex.three1 : Parsed := Ex.got (({ desc := Ex.threeDesc } : Cmdline).parse [Test.L "--inc", Test.L "a"])
def Ex.three2 : Parsed := Ex.got (parseEnvironmentPrefix [Test.L "APP_NAME=x", Test.L "HOME=/"] Ex.threeDesc (Test.L "APP_"))
def Ex.three3 : Parsed := Ex.got (parseConfigFile (Test.L "name = y\ninc = b\n") Ex.threeDesc)
def Ex.threeMap : VarMap := storesAny {} [(Ex.three1, false), (Ex.three2, false), (Ex.three3, false)]

example : Stores {} [(Ex.three1, false), (Ex.three2, false), (Ex.three3, false)] Ex.threeMap ∧ Ex.threeMap.notify.2 = none ∧
    assigned 1 Ex.threeMap.notify.1 = [.scalar (.str (Test.L "x"))] ∧
    assigned 2 Ex.threeMap.notify.1 = [.vector .str [.str (Test.L "a"), .str (Test.L "b")]] ∧
    assigned 3 Ex.threeMap.notify.1 = [.scalar (.str (Test.L "slow"))] :=
  ⟨.cons (m1 := (store Ex.three1 {}).1) rfl (.cons (m1 := (store Ex.three2 (store Ex.three1 {}).1).1) rfl (.cons (m1 := Ex.threeMap) rfl (.nil _))),
    by decide, by decide, by decide, by decide⟩

end PO
