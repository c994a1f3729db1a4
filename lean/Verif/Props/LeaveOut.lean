import Verif.Spec.LeaveOut
import Verif.Props.StoreCut
import Verif.Props.Several
/-
C164: leaving names out of a source.
-/
namespace PO
open Spec LeaveOut StoreCut

namespace LeaveOut

theorem occurrences_kept (keep : Str → Bool) (os : List Opt) {name : Str} (h : keep name = true) :
    occurrences (os.filter fun o => keep o.stringKey) name = occurrences os name := by
  unfold occurrences
  rw [List.filter_filter]
  apply List.filter_congr
  intro o _
  by_cases e : o.stringKey = name
  · rw [e, h]; simp
  · simp [e]

theorem mentions_kept {keep : Str → Bool} {os : List Opt} {name : Str} :
    Mentions (os.filter fun o => keep o.stringKey) name ↔ Mentions os name ∧ keep name = true := by
  constructor
  · rintro ⟨o, ho, rfl, h⟩
    obtain ⟨h1, h2⟩ := List.mem_filter.1 ho
    exact ⟨⟨o, h1, rfl, h⟩, h2⟩
  · rintro ⟨⟨o, ho, rfl, h⟩, hk⟩
    exact ⟨o, List.mem_filter.2 ⟨ho, hk⟩, rfl, h⟩

end LeaveOut

/-- **C164.** If a source is stored, so is what is left of it when all options of some names are left out. The other names get the same records and become final just as before;
the names left out are as if nothing had been said about them: they keep their record, or get a default. The same options are required. -/
theorem C164_stored (p : Parsed) (keep : Str → Bool) (xm m : VarMap) (utf8 : Bool) (h : store p xm utf8 = (m, none)) :
    ∃ m', store { p with options := p.options.filter fun o => keep o.stringKey } xm utf8 = (m', none) ∧
      (∀ name, keep name = true → m'.map.get? name = m.map.get? name ∧ (name ∈ m'.final ↔ name ∈ m.final)) ∧
      (∀ name, keep name = false →
        m'.map.get? name = (match xm.map.get? name with
          | some v => some v
          | none => (firstDefault p.desc name).map fun q => { v := q.2, defaulted := true, semantic := some q.1 }) ∧
        (name ∈ m'.final ↔ name ∈ xm.final)) ∧
      ∀ key, m'.required.get? key = m.required.get? key := by
  have hy := (C65_succeeds p xm utf8).1 (by rw [h])
  have yk : ∀ {name d a}, keep name = true →
      (Yields p.desc xm utf8 (p.options.filter fun o => keep o.stringKey) name d a ↔ Yields p.desc xm utf8 p.options name d a) := by
    intro name d a hk
    unfold Yields
    rw [occurrences_kept keep _ hk]
  obtain ⟨m', h'⟩ : ∃ m', store { p with options := p.options.filter fun o => keep o.stringKey } xm utf8 = (m', none) := by
    refine ⟨_, Prod.ext rfl ((C65_succeeds _ xm utf8).2 fun name hm hf => ?_)⟩
    obtain ⟨h1, h2⟩ := mentions_kept.1 hm
    obtain ⟨d, a, hd⟩ := hy name h1 hf
    exact ⟨d, a, (yk h2).2 hd⟩
  obtain ⟨sm, nf, -, hr⟩ := store_of_loop h
  obtain ⟨sm', nf', -, hr'⟩ := store_of_loop h'
  refine ⟨m', h', fun name hk => ?_, fun name hk => ?_, fun key => ?_⟩
  · obtain ⟨a1, a2⟩ := C65_result _ _ _ _ h name
    obtain ⟨b1, b2⟩ := C65_result _ _ _ _ h' name
    by_cases hc : Mentions p.options name ∧ name ∉ xm.final
    · obtain ⟨d, v, y1, e1, f1⟩ := a1 hc.1 hc.2
      obtain ⟨d', v', y2, e2, f2⟩ := b1 (mentions_kept.2 ⟨hc.1, hk⟩) hc.2
      obtain ⟨rfl, rfl⟩ := yields_det y1 ((yk hk).1 y2)
      exact ⟨e2.trans e1.symm, f2.trans f1.symm⟩
    · have : ¬ Mentions p.options name ∨ name ∈ xm.final := by
        by_cases h1 : Mentions p.options name
        · exact .inr (by by_contra h2; exact hc ⟨h1, h2⟩)
        · exact .inl h1
      obtain ⟨e1, f1⟩ := a2 this
      obtain ⟨e2, f2⟩ := b2 (this.imp_left fun hn hm => hn (mentions_kept.1 hm).1)
      exact ⟨e2.trans e1.symm, f2.trans f1.symm⟩
  · refine (C65_result _ _ _ _ h' name).2 (.inl fun hm => ?_)
    rw [(mentions_kept.1 hm).2] at hk
    cases hk
  · rw [hr, hr', applyAll_required, applyAll_required]

namespace LeaveOut

theorem lines_fewer {desc : List OptionDesc} {au : Bool} {keep : Str → Bool} {pre : Str} {ls ls' : List Str} (hw : FewerLines keep pre ls ls') {os : List Opt}
    (h : FileLines desc au pre ls os) : FileLines desc au pre ls' (os.filter fun o => keep o.stringKey) := by
  have items : ∀ {s s' n v n' v' : Str} {l : Str}, Says l s → Says l s' → ConfigItem s n v → ConfigItem s' n' v' → n = n' := by
    intro s s' n v n' v' l h1 h2 i1 i2
    rw [says_iff] at h1 h2
    subst h1; subst h2
    have e1 := line_configItem ⟨[], [], true⟩ [] i1
    rw [line_configItem ⟨[], [], true⟩ [] i2] at e1
    simp only [Bool.true_eq_false, and_false, if_false, Except.ok.injEq, LineResult.option.injEq, itemOption, Opt.mk.injEq, List.nil_append] at e1
    exact e1.1.symm
  have blank_item : ∀ {s n v l : Str}, Says l [] → Says l s → ConfigItem s n v → False := by
    intro s n v l h1 h2 i
    rw [says_iff] at h1 h2
    obtain ⟨a, b, e, -⟩ := i.split
    rw [← h2, h1] at e
    simp at e
  have header_item : ∀ {m s n v l : Str}, Says l ('[' :: m ++ [']']) → Says l s → ConfigItem s n v → False := by
    intro m s n v l h1 h2 i
    rw [says_iff] at h1 h2
    exact i.notHeader m (by rw [← h2, h1])
  have blank_header : ∀ {m l : Str}, Says l [] → Says l ('[' :: m ++ [']']) → False := by
    intro m l h1 h2
    rw [says_iff] at h1 h2
    rw [h1] at h2
    simp at h2
  induction hw generalizing os with
  | nil => cases h; exact .nil
  | blank h0 _ ih =>
    cases h with
    | blank _ t => exact .blank h0 (ih t)
    | header s h1 _ _ => exact (blank_header h0 h1).elim
    | known s n v h1 hi _ _ => exact (blank_item h0 h1 hi).elim
    | unknown s n v h1 hi _ _ _ => exact (blank_item h0 h1 hi).elim
  | header s h0 _ ih =>
    cases h with
    | blank h1 _ => exact (blank_header h1 h0).elim
    | header s' h1 hs t =>
      have : s' = s := by
        rw [says_iff] at h0 h1
        rw [h0] at h1
        simpa using h1.symm
      subst this
      exact .header s' h1 hs (ih t)
    | known s n v h1 hi _ _ => exact (header_item h0 h1 hi).elim
    | unknown s n v h1 hi _ _ _ => exact (header_item h0 h1 hi).elim
  | kept s n v h0 hi hk _ ih =>
    cases h with
    | blank h1 _ => exact (blank_item h1 h0 hi).elim
    | header s h1 _ _ => exact (header_item h1 h0 hi).elim
    | known s' n' v' h1 hi' ha t =>
      have := items h1 h0 hi' hi
      subst this
      rw [List.filter_cons_of_pos (by exact hk)]
      exact .known s' n' v' h1 hi' ha (ih t)
    | unknown s' n' v' h1 hi' ha hu t =>
      have := items h1 h0 hi' hi
      subst this
      rw [List.filter_cons_of_pos (by exact hk)]
      exact .unknown s' n' v' h1 hi' ha hu (ih t)
  | left s n v h0 hi hk _ ih =>
    cases h with
    | blank h1 _ => exact (blank_item h1 h0 hi).elim
    | header s h1 _ _ => exact (header_item h1 h0 hi).elim
    | known s' n' v' h1 hi' ha t =>
      have := items h1 h0 hi' hi
      subst this
      rw [List.filter_cons_of_neg (by show ¬ keep _ = true; simp [itemOption, hk])]
      exact ih t
    | unknown s' n' v' h1 hi' ha hu t =>
      have := items h1 h0 hi' hi
      subst this
      rw [List.filter_cons_of_neg (by show ¬ keep _ = true; simp [itemOption, hk])]
      exact ih t

theorem env_fewer {mapper : Str → Str} {keep : Str → Bool} {es es' : List Str} (hw : FewerVariables mapper keep es es') {os : List Opt}
    (h : parseEnvironmentLoop mapper es = .ok os) : parseEnvironmentLoop mapper es' = .ok (os.filter fun o => keep o.stringKey) := by
  have split : ∀ {n v : Str}, '=' ∉ n → splitEnv (n ++ '=' :: v) = .ok (n, v) := by
    intro n v hn
    unfold splitEnv
    rw [findChar_append hn]
    simp
  induction hw generalizing os with
  | nil => cases h; rfl
  | kept n v hn hk _ ih =>
    rw [parseEnvironmentLoop, split hn] at h ⊢
    dsimp only at h ⊢
    generalize hr : parseEnvironmentLoop mapper _ = r at h
    cases r with
    | error f => cases h
    | ok os' =>
      rw [ih hr]
      dsimp only at h ⊢
      by_cases hm : mapper n = []
      · rw [if_pos hm] at h ⊢
        cases h; rfl
      · rw [if_neg hm] at h ⊢
        cases h
        rw [List.filter_cons_of_pos (by exact hk)]
  | left n v hn hk _ ih =>
    rw [parseEnvironmentLoop, split hn] at h
    dsimp only at h
    generalize hr : parseEnvironmentLoop mapper _ = r at h
    cases r with
    | error f => cases h
    | ok os' =>
      rw [ih hr]
      dsimp only at h
      by_cases hm : mapper n = []
      · rw [if_pos hm] at h
        cases h; rfl
      · rw [if_neg hm] at h
        cases h
        rw [List.filter_cons_of_neg (by simp [hk])]

end LeaveOut

/-- **C164, files.** The lines of a configuration file that set certain names may be deleted: the file is still read, without the options of these names. -/
theorem C164_file (desc : List OptionDesc) (au : Bool) (keep : Str → Bool) (ls ls' : List Str) (hl : ∀ l ∈ ls, '\n' ∉ l) (hw : FewerLines keep [] ls ls') (p : Parsed)
    (h : parseConfigFile (ls.flatMap (· ++ ['\n'])) desc au = .ok p) :
    parseConfigFile (ls'.flatMap (· ++ ['\n'])) desc au = .ok { p with options := p.options.filter fun o => keep o.stringKey } := by
  have hl' : ∀ l ∈ ls', '\n' ∉ l := by
    clear h
    generalize ([] : Str) = pre at hw
    induction hw with
    | nil => simp
    | blank _ _ ih | header _ _ _ ih | kept _ _ _ _ _ _ _ ih =>
      intro x hx
      rcases List.mem_cons.1 hx with rfl | hx
      · exact hl _ (List.mem_cons_self ..)
      · exact ih (fun y hy => hl y (List.mem_cons_of_mem _ hy)) x hx
    | left _ _ _ _ _ _ _ ih => exact ih fun y hy => hl y (List.mem_cons_of_mem _ hy)
  obtain ⟨h1, h2, k, last, os, e, k1, k2, k3, rfl⟩ := (C64_accepted _ _ _ _).1 h
  have hu : k = ls ∧ last = [] := by
    have e1 := getlines_unlines k k1 last k2
    have e2 := getlines_unlines ls hl [] (by simp)
    unfold unlines at e1 e2
    rw [List.append_nil] at e2
    rw [← e, e2] at e1
    simp only [if_true, List.append_nil] at e1
    by_cases hq : last = []
    · rw [if_pos hq, List.append_nil] at e1
      exact ⟨e1.symm, hq⟩
    · rw [if_neg hq] at e1
      exfalso
      rw [e1] at e
      simp only [List.flatMap_append, List.flatMap_cons, List.flatMap_nil, List.append_nil, List.append_cancel_left_eq] at e
      simpa using congrArg List.length e
  obtain ⟨rfl, rfl⟩ := hu
  have trail : ∀ {pre : Str} {as : List Str} {os : List Opt}, FileLines desc au pre (as ++ [[]]) os ↔ FileLines desc au pre as os := by
    intro pre as
    induction as generalizing pre with
    | nil =>
      intro os
      constructor
      · intro h
        cases h with
        | blank _ t => exact t
        | header s h1 _ _ => rw [says_iff] at h1; exact absurd h1 (by simp [stripLine, trimWs, findChar])
        | known s n v h1 hi _ _ =>
          obtain ⟨a, b, e, -⟩ := hi.split
          rw [says_iff, e] at h1; exact absurd h1 (by simp [stripLine, trimWs, findChar])
        | unknown s n v h1 hi _ _ _ =>
          obtain ⟨a, b, e, -⟩ := hi.split
          rw [says_iff, e] at h1; exact absurd h1 (by simp [stripLine, trimWs, findChar])
      · intro h
        exact .blank ((says_iff _ _).2 rfl) h
    | cons l as ih =>
      intro os
      constructor
      · intro h
        cases h with
        | blank h1 t => exact .blank h1 (ih.1 t)
        | header s h1 hs t => exact .header s h1 hs (ih.1 t)
        | known s n v h1 hi ha t => exact .known s n v h1 hi ha (ih.1 t)
        | unknown s n v h1 hi ha hu t => exact .unknown s n v h1 hi ha hu (ih.1 t)
      · intro h
        cases h with
        | blank h1 t => exact .blank h1 (ih.2 t)
        | header s h1 hs t => exact .header s h1 hs (ih.2 t)
        | known s n v h1 hi ha t => exact .known s n v h1 hi ha (ih.2 t)
        | unknown s n v h1 hi ha hu t => exact .unknown s n v h1 hi ha hu (ih.2 t)
  exact (C64_accepted _ _ _ _).2 ⟨h1, h2, ls', [], _, by simp, hl', by simp, trail.2 (lines_fewer hw (trail.1 k3)), rfl⟩

/-- **C164, environment.** So may variables of the environment. -/
theorem C164_environment (desc : List OptionDesc) (mapper : Str → Str) (keep : Str → Bool) (es es' : List Str) (hw : FewerVariables mapper keep es es') (p : Parsed)
    (h : parseEnvironment es desc mapper = .ok p) :
    parseEnvironment es' desc mapper = .ok { p with options := p.options.filter fun o => keep o.stringKey } := by
  unfold parseEnvironment at h ⊢
  cases hl : parseEnvironmentLoop mapper es with
  | error f => rw [hl] at h; cases h
  | ok os =>
    rw [hl] at h
    cases h
    rw [env_fewer hw hl]

/-- **C164, the program.** If the variables are then assigned, before and after, each variable bound to an option of a name that is kept gets the same value. -/
theorem C164_variable (env : Env) (p : Parsed) (keep : Str → Bool) (utf8 : Bool) (m m' : VarMap) (h : store p {} utf8 = (m, none))
    (h' : store { p with options := p.options.filter fun o => keep o.stringKey } {} utf8 = (m', none)) (es es' : List Event) (hn : m.notify = (es, none))
    (hn' : m'.notify = (es', none)) (name : Str) (hk : keep name = true) (addr : Nat) (d : OptionDesc) (hd : d ∈ p.desc) (hb : Bound env p name addr d) :
    assigned addr es' = assigned addr es := by
  obtain ⟨m2, h2, h3, -⟩ := C164_stored p keep {} m utf8 h
  rw [h'] at h2
  cases h2
  have s1 : Stores {} [(p, utf8)] m := .cons h (.nil _)
  have s2 : Stores {} [({ p with options := p.options.filter fun o => keep o.stringKey }, utf8)] m' := .cons h' (.nil _)
  obtain ⟨r1, a1, b1⟩ := C104_variable env _ m s1 es hn name addr d ⟨_, List.mem_singleton.2 rfl, hd⟩ (by intro q hq; rw [List.mem_singleton.1 hq]; exact hb)
  obtain ⟨r2, a2, b2⟩ := C104_variable env _ m' s2 es' hn' name addr d ⟨_, List.mem_singleton.2 rfl, hd⟩
    (by intro q hq
        rw [List.mem_singleton.1 hq]
        exact ⟨hb.typed, hb.others, fun hm => hb.meant (mentions_kept.1 hm).1, fun k hm => hb.mentioned k (mentions_kept.1 hm).1, hb.named⟩)
  obtain ⟨r3, a3, e1⟩ := C104_value _ m s1 name
  obtain ⟨r4, a4, e2⟩ := C104_value _ m' s2 name
  have q1 := a1.det a3
  have q2 := a2.det a4
  subst q1; subst q2
  rw [b1, b2, ← e1, ← e2, (h3 name hk).1]

/-! ### Examples -/

/-- Of `name`, `inc` and `inc` again, `inc` is left out. -/
example : ∃ m', store { Ex.src1 with options := [Ex.o "name" ["a"]] } {} = (m', none) ∧
    m'.map.get? (Test.L "name") = (store Ex.src1 {}).1.map.get? (Test.L "name") := by
  obtain ⟨m', h1, h2, -⟩ := C164_stored Ex.src1 (fun n => n != Test.L "inc") {} _ false (Prod.ext rfl (by decide))
  exact ⟨m', h1, (h2 _ (by decide)).1⟩

/-- A variable for `level` is assigned whether or not `verbose` is there. -/
def Ex.keepSrc : Parsed where
  desc := [⟨[], [str% "level"], [], ({ type := .scalar .str, storeTo := some 7 } : TypedValue).toSemantic Test.env⟩,
    ⟨[], [str% "verbose"], [], untypedValue Test.env true⟩]
  options := [{ stringKey := str% "verbose" }, { stringKey := str% "level", value := [str% "3"] }]

example : assigned 7 ((store { Ex.keepSrc with options := Ex.keepSrc.options.filter fun o => o.stringKey != str% "verbose" } {}).1.notify).1 =
    assigned 7 ((store Ex.keepSrc {}).1.notify).1 ∧ assigned 7 ((store Ex.keepSrc {}).1.notify).1 = [.scalar (.str (str% "3"))] := by
  refine ⟨C164_variable Test.env Ex.keepSrc (fun n => n != str% "verbose") false _ _ rfl rfl _ _ rfl rfl (str% "level") (by decide) 7 _ (List.mem_cons_self ..)
    ⟨⟨_, rfl, rfl⟩, ?_, fun _ => rfl, ?_, ?_⟩, by decide⟩
  · intro d' hd' hne
    rcases List.mem_cons.1 hd' with rfl | hd'
    · exact absurd rfl hne
    · rw [List.mem_singleton.1 hd']; exact .inl ⟨true, rfl⟩
  · rintro k ⟨o, ho, rfl, -⟩ hk
    rcases List.mem_cons.1 ho with rfl | ho
    · exact absurd (congrArg (fun l => l.map (·.longNames)) hk) (by decide)
    · rw [List.mem_singleton.1 ho]
  · intro d' hd'
    rcases List.mem_cons.1 hd' with rfl | hd'
    · exact ⟨fun _ => rfl, fun _ => rfl⟩
    · rw [List.mem_singleton.1 hd']
      exact ⟨fun h => absurd h (by decide), fun h => absurd (congrArg (·.longNames) h) (by decide)⟩

/-- The line for `s.b` is deleted. -/
example (desc : List OptionDesc) (p : Parsed) (h : parseConfigFile (str% "a=1\n[s]\nb=2\nc=3\n") desc true = .ok p) :
    parseConfigFile (str% "a=1\n[s]\nc=3\n") desc true = .ok { p with options := p.options.filter fun o => o.stringKey != str% "s.b" } := by
  have item : ∀ (c : Char) (v : Char), c ≠ '[' → c ≠ '=' → trimWs [c] = [c] → trimWs [v] = [v] → ConfigItem [c, '=', v] [c] [v] := by
    intro c v h1 h2 h3 h4
    refine ⟨fun m hm => h1 (by injection hm), [c], [v], rfl, by simpa using h2.symm, (padded_iff _ _).2 h3, (padded_iff _ _).2 h4⟩
  exact C164_file desc true (fun n => n != str% "s.b") [str% "a=1", str% "[s]", str% "b=2", str% "c=3"] [str% "a=1", str% "[s]", str% "c=3"] (by decide)
    (.kept _ _ _ ((says_iff _ _).2 rfl) (item 'a' '1' (by decide) (by decide) rfl rfl) (by decide)
      (.header (str% "s") ((says_iff _ _).2 rfl)
        (.left _ _ _ ((says_iff _ _).2 rfl) (item 'b' '2' (by decide) (by decide) rfl rfl) (by decide)
          (.kept _ _ _ ((says_iff _ _).2 rfl) (item 'c' '3' (by decide) (by decide) rfl rfl) (by decide) .nil)))) p h

/-- `HOME` is unset. -/
example : parseEnvironment [str% "A=1"] [] id =
    .ok { desc := [], options := ([{ stringKey := str% "HOME", value := [str% "/"] }, { stringKey := str% "A", value := [str% "1"] }] : List Opt).filter fun o => o.stringKey != str% "HOME" } :=
  C164_environment [] id (fun n => n != str% "HOME") [str% "HOME=/", str% "A=1"] [str% "A=1"]
    (.left (str% "HOME") (str% "/") (by decide) (by decide) (.kept (str% "A") (str% "1") (by decide) (by decide) .nil)) _ rfl

end PO
