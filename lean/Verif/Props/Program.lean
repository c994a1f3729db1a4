import Verif.Props.Stored
import Verif.Props.Notify
import Verif.Props.RoundTrip
/-
C88: what arrives in the variables of a program.
-/
namespace PO
open Spec

theorem assigned_append (addr : Nat) (a b : List Event) : assigned addr (a ++ b) = assigned addr a ++ assigned addr b := List.filterMap_append

theorem notifyLoop_cons {k : Str} {v : VarValue} {rest : SMap VarValue} {es : List Event} (h : VarMap.notifyLoop ((k, v) :: rest) = (es, none)) :
    ∃ e es', Delivers v e ∧ VarMap.notifyLoop rest = (es', none) ∧ es = e ++ es' := by
  rw [VarMap.notifyLoop] at h
  cases hs : v.semantic with
  | none =>
    simp only [hs] at h
    exact ⟨[], es, delivers_of_notify v [] (by rw [hs]), h, rfl⟩
  | some s =>
    simp only [hs] at h
    cases hn : s.notify v.v with
    | mk e f =>
    rw [hn] at h
    cases f with
    | some f => cases h
    | none =>
      simp only at h
      cases hr : VarMap.notifyLoop rest with
      | mk es' f =>
      rw [hr] at h
      simp only [Prod.mk.injEq] at h
      exact ⟨e, es', delivers_of_notify v e (by rw [hs]; exact hn), by rw [h.2], h.1.symm⟩

/-- Every record of a map filled from one source belongs to a declared option. -/
theorem record_option {p : Parsed} {m : VarMap} {utf8 : Bool} (h : store p {} utf8 = (m, none)) {k : Str} {v : VarValue}
    (hv : m.map.get? k = some v) : ∃ d ∈ p.desc, v.semantic = some d.semantic ∧
      (Mentions p.options k ∧ candidates p.desc k = [d] ∨ d.own = k) := by
  by_cases hm : Mentions p.options k
  · obtain ⟨d, a, h1, h2, -⟩ := (C65_result p {} m utf8 h k).1 hm (by simp)
    rw [hv] at h2
    have hd : d ∈ p.desc := by
      have : d ∈ candidates p.desc k := by rw [h1.1]; exact List.mem_singleton.2 rfl
      unfold candidates exacts approximates at this
      split at this <;> exact (List.mem_filter.1 this).1
    exact ⟨d, hd, by rw [Option.some.inj h2], .inl ⟨hm, h1.1⟩⟩
  · obtain ⟨h1, -⟩ := (C65_result p {} m utf8 h k).2 (.inl hm)
    rw [hv] at h1
    have h2 : some v = (firstDefault p.desc k).map fun q => { v := q.2, defaulted := true, semantic := some q.1 } := h1
    cases hf : firstDefault p.desc k with
    | none => rw [hf] at h2; cases h2
    | some q =>
      rw [hf] at h2
      unfold firstDefault at hf
      obtain ⟨l1, d, l2, e, hd, -⟩ := List.findSome?_eq_some_iff.1 hf
      split at hd
      · rename_i hk
        cases ha : d.semantic.applyDefault with
        | none => rw [ha] at hd; cases hd
        | some a =>
          rw [ha] at hd
          cases hd
          exact ⟨d, by rw [e]; simp, by rw [Option.some.inj h2], .inr hk.1⟩
      · cases hd

theorem assigned_delivers {env : Env} {v : VarValue} {e : List Event} (h : Delivers v e) (addr : Nat) {d : OptionDesc} (hs : v.semantic = some d.semantic)
    (hd : (∃ zero, d.semantic = untypedValue env zero) ∨ ∃ t : TypedValue, d.semantic = t.toSemantic env ∧ t.storeTo ≠ some addr) :
    assigned addr e = [] := by
  rcases hd with ⟨zero, hd⟩ | ⟨t, hd, hne⟩
  · rw [h.2.1 env zero (by rw [hs, hd])]; rfl
  · rcases h.2.2 env t (by rw [hs, hd]) with ⟨-, -, rfl⟩ | ⟨a, -, -, rfl⟩
    · rfl
    · rw [assigned_append]
      cases hst : t.storeTo with
      | none => cases t.notifier <;> rfl
      | some p =>
        have : p ≠ addr := by rintro rfl; exact hne hst
        cases t.notifier <;> simp [assigned, this]

theorem assigned_delivers_bound {env : Env} {v : VarValue} {e : List Event} (h : Delivers v e) (addr : Nat) {d : OptionDesc}
    (hs : v.semantic = some d.semantic) {t : TypedValue} (hd : d.semantic = t.toSemantic env) (ht : t.storeTo = some addr) :
    assigned addr e = v.v.toList := by
  rcases h.2.2 env t (by rw [hs, hd]) with ⟨h1, -, -⟩ | ⟨a, h1, -, rfl⟩
  · rw [ht] at h1; cases h1
  · rw [assigned_append, ht, h1]
    cases t.notifier <;> simp [assigned]

theorem assigned_loop (addr : Nat) (name : Str) (l : SMap VarValue) (hs : l.Sorted)
    (h1 : ∀ k v, (k, v) ∈ l → k ≠ name → ∀ e, Delivers v e → assigned addr e = [])
    (h2 : ∀ v, (name, v) ∈ l → ∀ e, Delivers v e → assigned addr e = v.v.toList) :
    ∀ es, VarMap.notifyLoop l = (es, none) → assigned addr es = ((l.get? name).bind (·.v)).toList := by
  induction l with
  | nil => intro es h; cases h; rfl
  | cons q rest ih =>
    intro es h
    obtain ⟨k, v⟩ := q
    obtain ⟨e, es', hd, hr, rfl⟩ := notifyLoop_cons h
    have hs' : SMap.Sorted rest := (List.pairwise_cons.1 hs).2
    rw [assigned_append, ih hs' (fun k v hk => h1 k v (List.mem_cons_of_mem _ hk)) (fun v hv => h2 v (List.mem_cons_of_mem _ hv)) es' hr]
    rw [SMap.get?]
    by_cases hk : k = name
    · subst hk
      rw [if_pos rfl, h2 v (List.mem_cons_self ..) e hd]
      have : SMap.get? rest k = none := by
        cases hg : SMap.get? rest k with
        | none => rfl
        | some w =>
          have := (List.pairwise_cons.1 hs).1 _ ((SMap.get?_eq_some hs' k w).1 hg)
          rw [strLt_irrefl] at this
          cases this
      rw [this]
      simp
    · rw [if_neg hk, h1 k v (List.mem_cons_self ..) hk e hd]
      rfl

/-- **C88.** A variable bound to one option is assigned exactly once, the value stored for the name of this option, whether given or the
default; if there is none, the variable is not touched. -/
theorem C88_assigned (env : Env) (p : Parsed) (m : VarMap) (utf8 : Bool) (h : store p {} utf8 = (m, none)) (es : List Event)
    (hn : m.notify = (es, none)) (name : Str) (addr : Nat) (d : OptionDesc) (hd : d ∈ p.desc) (hb : Bound env p name addr d) :
    assigned addr es = ((m.map.get? name).bind (·.v)).toList := by
  have hl : VarMap.notifyLoop m.map = (es, none) := by
    unfold VarMap.notify at hn
    split at hn
    · cases hn
    · exact hn
  have ho : m.map.Sorted := by
    have := (ordered_store ordered_empty p utf8).map
    rw [h] at this
    exact this
  refine assigned_loop addr name m.map ho ?_ ?_ es hl
  · intro k v hk hne e he
    obtain ⟨d', hd', h1, h2⟩ := record_option h ((SMap.get?_eq_some ho k v).2 hk)
    refine assigned_delivers he addr h1 (hb.others d' hd' ?_)
    rintro rfl
    rcases h2 with ⟨h2, h3⟩ | h2
    · exact hne (hb.mentioned k h2 h3)
    · exact hne (h2 ▸ (hb.named d' hd).2 rfl)
  · intro v hk e he
    obtain ⟨d', hd', h1, h2⟩ := record_option h ((SMap.get?_eq_some ho name v).2 hk)
    obtain ⟨t, ht, hst⟩ := hb.typed
    have : d' = d := by
      rcases h2 with ⟨h2, h3⟩ | h2
      · have hc := hb.meant h2
        rw [h3] at hc
        exact (List.cons.inj hc).1
      · exact (hb.named d' hd').1 h2
    subst this
    exact assigned_delivers_bound he addr h1 ht hst

/-- **C88, from the command line to the variables.** Settings written on a command line, each of another option and acceptable to it: the
command line is parsed and stored without exception; if `notify` then throws none, the variable of each option has been assigned exactly
once, the value of its setting. -/
theorem C88_program (env : Env) (c : Cmdline) (hs : c.styleParser = none) (ha : c.additional = none) (hl : Enabled c Style.allowLong)
    (hne : ∀ d ∈ c.desc, ∀ name, name ≠ [] → reportedKey d name ≠ []) (settings : List (Str × Option Str))
    (h : ∀ s ∈ settings, Expressible c s) (hlen : settings.length < 2147483648) (hdis : (settings.map (·.1)).Nodup) (value : Str → AVal)
    (hv : ∀ s ∈ settings, ∃ d t, candidates c.desc s.1 = [d] ∧ d.semantic = TypedValue.toSemantic env t ∧ t.wide = false ∧
      Takes env t none (s.2.toList.map .narrow) (value s.1)) :
    ∃ p m, c.parse (settings.map written) = .ok p ∧ store p {} false = (m, none) ∧
      (∀ s ∈ settings, (m.map.get? s.1).bind (·.v) = some (value s.1)) ∧
      ∀ es, m.notify = (es, none) → ∀ s ∈ settings, ∀ addr d, d ∈ c.desc → Bound env p s.1 addr d → assigned addr es = [value s.1] := by
  have hocc : ∀ s ∈ settings, occurrences (settings.map (settingOption c)) s.1 = [settingOption c s] := by
    intro s hs'
    have hn := (h s hs').name.1
    clear hlen hv h
    induction settings with
    | nil => cases hs'
    | cons q rest ih =>
      rw [List.map_cons, List.nodup_cons] at hdis
      have hrest : ∀ name, name ∉ rest.map (·.1) → occurrences (rest.map (settingOption c)) name = [] := by
        intro name hname
        refine List.filter_eq_nil_iff.2 ?_
        intro o ho hc
        obtain ⟨r, hr, rfl⟩ := List.mem_map.1 ho
        have : r.1 = name := (of_decide_eq_true hc).1
        exact hname (List.mem_map.2 ⟨r, hr, this⟩)
      unfold occurrences at ih hrest ⊢
      rw [List.map_cons, List.filter_cons]
      rcases List.mem_cons.1 hs' with rfl | hs'
      · rw [if_pos (by simp [settingOption, hn]), hrest _ hdis.1]
      · have : q.1 ≠ s.1 := by intro e; exact hdis.1 (List.mem_map.2 ⟨s, hs', e.symm⟩)
        rw [if_neg (by simp [settingOption, this]), ih hdis.2 hs']
  have hmen : ∀ name, Mentions (settings.map (settingOption c)) name → ∃ s ∈ settings, s.1 = name := by
    rintro name ⟨o, ho, hk, -⟩
    obtain ⟨s, hs', rfl⟩ := List.mem_map.1 ho
    exact ⟨s, hs', hk⟩
  have hyield : ∀ s ∈ settings, ∃ d, Yields c.desc {} false (settings.map (settingOption c)) s.1 d (some (value s.1)) := by
    intro s hs'
    obtain ⟨d, t, h1, h2, h3, h4⟩ := hv s hs'
    refine ⟨d, h1, ?_⟩
    rw [hocc s hs', h2]
    refine (parseAll_gets env t false _ _ _).2 ⟨[s.2.toList.map .narrow], .cons ?_ .nil, .more _ _ _ _ _ h4 (.done _)⟩
    rw [h3]
    have : ∀ l : List Str, List.Forall₂ (Arrives env false false) l (l.map .narrow) := by
      intro l
      induction l with
      | nil => exact .nil
      | cons a as ih => exact .cons (.same a) ih
    exact this _
  refine ⟨{ desc := c.desc, options := settings.map (settingOption c), pre := c.canonicalPrefix }, ?_⟩
  have hst : (store { desc := c.desc, options := settings.map (settingOption c), pre := c.canonicalPrefix } {} false).2 = none := by
    refine (C65_succeeds _ _ _).2 fun name hm _ => ?_
    obtain ⟨s, hs', rfl⟩ := hmen name hm
    obtain ⟨d, hd⟩ := hyield s hs'
    exact ⟨d, _, hd⟩
  refine ⟨_, by unfold Cmdline.parse; rw [C84_settings c hs ha hl hne settings h hlen], Prod.ext rfl hst, ?_⟩
  have hval : ∀ s ∈ settings, ((store { desc := c.desc, options := settings.map (settingOption c), pre := c.canonicalPrefix } {} false).1.map.get? s.1).bind (·.v)
      = some (value s.1) := by
    intro s hs'
    obtain ⟨d, hy⟩ := hyield s hs'
    obtain ⟨d', a, h1, h2, -⟩ := (C65_result _ {} _ false (Prod.ext rfl hst) s.1).1
      ⟨settingOption c s, List.mem_map.2 ⟨s, hs', rfl⟩, rfl, (h s hs').name.1, rfl⟩ (by simp)
    have : d' = d := by
      have := h1.1
      rw [hy.1] at this
      exact (List.cons.inj this).1.symm
    subst this
    have e := h1.2
    rw [hy.2] at e
    cases e
    rw [h2]
    rfl
  refine ⟨hval, ?_⟩
  intro es hn s hs' addr d hd hb
  rw [C88_assigned env _ _ false (Prod.ext rfl hst) es hn s.1 addr d hd hb, hval s hs']
  rfl

/-- Two string options with variables 7 and 8, one of them with a default. -/
def programExample : Cmdline :=
  { desc := [Test.od "name" (TypedValue.toSemantic Test.env { type := .scalar .str, storeTo := some 7 }) "",
      Test.od "level" (TypedValue.toSemantic Test.env { type := .scalar .str, storeTo := some 8, dflt := some (.scalar (.str (Test.L "low")), Test.L "low") }) ""] }

example : ∃ p m es, programExample.parse [Test.L "--name=--x=y"] = .ok p ∧ store p {} false = (m, none) ∧ m.notify = (es, none) ∧
    assigned 7 es = [.scalar (.str (Test.L "--x=y"))] ∧ assigned 8 es = [.scalar (.str (Test.L "low"))] :=
  ⟨_, _, _, rfl, rfl, rfl, rfl, rfl⟩

example (p : Parsed) (hp : programExample.parse [Test.L "--name=--x=y"] = .ok p) :
    ∃ d ∈ programExample.desc, Bound Test.env p (Test.L "name") 7 d := by
  cases hp
  refine ⟨_, List.mem_cons_self .., ⟨_, rfl, rfl⟩, ?_, fun _ => rfl, ?_, ?_⟩
  · intro d' hd' hne
    rcases List.mem_cons.1 hd' with rfl | hd'
    · exact absurd rfl hne
    · cases List.mem_singleton.1 hd'
      exact .inr ⟨_, rfl, by simp⟩
  · rintro k ⟨o, ho, hk, -⟩ -
    cases List.mem_singleton.1 ho
    exact hk.symm
  · intro d' hd'
    rcases List.mem_cons.1 hd' with rfl | hd'
    · exact ⟨fun _ => rfl, fun _ => rfl⟩
    · cases List.mem_singleton.1 hd'
      constructor
      · intro h; exact absurd h (by decide)
      · intro h
        have := congrArg (OptionDesc.key · []) h
        exact absurd this (by decide)

end PO
