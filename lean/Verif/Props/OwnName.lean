import Verif.Spec.OwnName
import Verif.Props.Known
import Verif.Props.Notify
import Verif.Props.Environment
/-
C100: a setting is found under the own name of its option.
-/
namespace PO
open Spec

theorem Spec.Setting.mentions {p : Parsed} {o : Opt} {d : OptionDesc} (h : Setting p o d) : Mentions p.options o.stringKey :=
  ⟨o, h.mem, rfl, h.named, h.registered⟩

/-- After a store, exactly these names have an explicit value: those given in the source and not finished before, and those that had one. -/
theorem C100_explicit_iff (p : Parsed) (xm m : VarMap) (utf8 : Bool) (h : store p xm utf8 = (m, none)) (name : Str) :
    HasExplicit m name ↔ (Mentions p.options name ∧ name ∉ xm.final) ∨ HasExplicit xm name := by
  by_cases hm : Mentions p.options name ∧ name ∉ xm.final
  · obtain ⟨d, a, -, h1, -⟩ := (C65_result p xm m utf8 h name).1 hm.1 hm.2
    exact ⟨fun _ => .inl hm, fun _ => ⟨_, h1, rfl⟩⟩
  · have h1 := ((C65_result p xm m utf8 h name).2 (by
      by_cases h0 : Mentions p.options name
      · right; by_contra hf; exact hm ⟨h0, hf⟩
      · exact .inl h0)).1
    unfold HasExplicit
    rw [h1]
    cases hx : xm.map.get? name with
    | some v => simp [hm]
    | none =>
      constructor
      · rintro ⟨v, hv, hd⟩
        dsimp only at hv
        cases hf : firstDefault p.desc name with
        | none => rw [hf] at hv; cases hv
        | some q => rw [hf] at hv; cases hv; cases hd
      · rintro (h | ⟨v, hv, -⟩)
        · exact absurd h hm
        · cases hv

/-- **C100, exactly:** after a store the options are found by name if and only if each setting of an option under another name goes
with one under its own name, or with an explicit value stored before. -/
theorem C100_found_iff (p : Parsed) (xm m : VarMap) (utf8 : Bool) (h : store p xm utf8 = (m, none)) :
    FoundByName p m ↔ ∀ o d, Setting p o d →
      (Mentions p.options (ownName d o.stringKey) ∧ ownName d o.stringKey ∉ xm.final) ∨ HasExplicit xm (ownName d o.stringKey) :=
  forall_congr' fun _ => forall_congr' fun _ => imp_congr_right fun _ => C100_explicit_iff p xm m utf8 h _

/-- The first source: settings under the own names suffice. -/
theorem C100_own_names (p : Parsed) (m : VarMap) (utf8 : Bool) (h : store p {} utf8 = (m, none)) (ho : OwnNames p) : FoundByName p m := by
  rw [C100_found_iff p {} m utf8 h]
  intro o d hs
  rw [ho o d hs]
  exact .inl ⟨hs.mentions, by simp⟩

theorem ownName_idem (d : OptionDesc) (name : Str) : ownName d (ownName d name) = ownName d name := by
  unfold ownName reportedKey
  cases d.longNames.head? with
  | none => rfl
  | some n =>
    dsimp only
    by_cases h : '*' ∈ n
    · rw [if_pos h, if_pos h]
    · rw [if_neg h, if_neg h]

theorem candidates_mem {desc : List OptionDesc} {name : Str} {d : OptionDesc} (h : candidates desc name = [d]) : d ∈ desc := by
  have : d ∈ candidates desc name := by rw [h]; exact List.mem_singleton.2 rfl
  unfold candidates exacts approximates at this
  split at this <;> exact (List.mem_filter.1 this).1

/-- **C100, command lines, what holds:** everything but positional arguments gets the own name of its option, and these do if that is what
they are called in the positional description. -/
theorem C100_command_line_partial (c : Cmdline) (hs : c.styleParser = none) (hc : NoClash c.desc)
    (hpos : ∀ p, c.positional = some p → ∀ n, n ∈ p.names ∨ n = p.trailing → n ≠ [] → ∀ d, candidates c.desc n = [d] → ownName d n = n)
    (hwild : (∀ d ∈ c.desc, ∀ n, d.longNames.head? = some n → '*' ∉ n) ∨
      (active c.style Style.allowGuessing = false ∧ active c.style Style.longCaseInsensitive = false ∧ active c.style Style.shortCaseInsensitive = false))
    (args : List Str) (p : Parsed) (h : c.parse args = .ok p) : OwnNames p := by
  obtain ⟨os, hrun, rfl⟩ : ∃ os, c.run args = .ok os ∧ p = { desc := c.desc, options := os, pre := c.canonicalPrefix } := by
    unfold Cmdline.parse at h
    split at h
    · cases h
    · rename_i os hos; cases h; exact ⟨os, hos, rfl⟩
  rintro o d0 ⟨ho, hk, hreg, hd0⟩
  dsimp only at ho hd0
  by_cases hp : o.positionKey = -1
  · obtain ⟨_, _, name, _, _, _, d, hd, hden, hkey⟩ := C06_canonical_key c hs args os hrun o ho hp hreg
    suffices h : d0 = d by subst h; rw [hkey]; exact ownName_idem _ _
    by_cases hself : reportedKey d name = name ∧ ¬ ∀ d ∈ c.desc, ∀ n, d.longNames.head? = some n → '*' ∉ n
    · obtain ⟨w1, w2, w3⟩ := hwild.resolve_left hself.2
      rw [hkey, hself.1] at hd0
      unfold Denotes at hden
      dsimp only at hden
      rw [w1, w2, w3] at hden
      unfold candidates at hd0
      rcases hden with hden | ⟨h1, h2⟩
      · rw [hden] at hd0; simpa using hd0.symm
      · rw [h1, if_neg (by simp), h2] at hd0; simpa using hd0.symm
    · have hcan : CanonicalName d (reportedKey d name) := by
        unfold reportedKey CanonicalName
        by_cases hw : ∀ d ∈ c.desc, ∀ n, d.longNames.head? = some n → '*' ∉ n
        · cases hl : d.longNames with
          | nil => simp
          | cons n ns =>
            simp only [List.head?_cons]
            rw [if_neg (hw d hd n (by rw [hl]; rfl))]
            exact .inl ⟨rfl, hw d hd n (by rw [hl]; rfl)⟩
        · rcases key_cases d name with hcan | hcan
          · rw [key_eq] at hcan; exact hcan
          · rw [key_eq] at hcan; exact absurd ⟨hcan, hw⟩ hself
      rw [← hkey] at hcan
      have : candidates c.desc o.stringKey = [d] := known_exact hc hd hk (by
        rcases hcan with ⟨h1, _⟩ | ⟨_, h1⟩
        · exact .inl ⟨_, List.mem_of_mem_head? h1, hk, rfl⟩
        · exact .inr (by simp [fold, h1]))
      rw [this] at hd0
      exact (List.cons.inj hd0).1.symm
  · have hmem : o ∈ positionals os := List.mem_filter.2 ⟨ho, by simpa using hp⟩
    obtain ⟨i, hi, hoi⟩ := List.mem_iff_getElem.1 hmem
    obtain ⟨-, -, hname⟩ := C08_numbered c hs args os hrun i o (by rw [← hoi]; exact List.getElem?_eq_getElem hi)
    cases hpp : c.positional with
    | none => rw [hpp] at hname; exact absurd hname hk
    | some q =>
      rw [hpp] at hname
      dsimp only at hname
      refine hpos q hpp _ ?_ hk d0 hd0
      unfold Positional.nameForPosition at hname
      split at hname
      · rename_i n hn; cases hname; exact .inl (List.mem_of_getElem? hn)
      · split at hname
        · cases hname
        · exact .inr (Except.ok.inj hname).symm

/-- **C100, configuration files, what holds:** a file may only set options under their own names, unless another name of some option falls
into a declared family. -/
theorem C100_config_file_partial (text : Str) (desc : List OptionDesc)
    (ha : ∀ d ∈ desc, ∀ n ∈ d.longNames.tail, n.getLast? ≠ some '*' ∧ ¬ Accepts desc n)
    (hsh : ∀ d ∈ desc, d.shortName ≠ [] → ¬ Accepts desc d.shortName)
    (p : Parsed) (h : parseConfigFile text desc false = .ok p) : OwnNames p := by
  obtain ⟨hne, -, _, _, _, -, -, -, -, hp⟩ := (C64_accepted text desc false p).1 h
  have hpd : p.desc = desc := by rw [hp]
  rintro o d ⟨hom, hk, -, hd⟩
  rw [hpd] at hd
  have hacc := (C28_all_accepted text desc p h o hom).1
  have hdm := candidates_mem hd
  have hlong : ∃ ns, d.longNames = d.firstLong :: ns := by
    have := hne d hdm
    unfold OptionDesc.firstLong at this ⊢
    cases hl : d.longNames with
    | nil => rw [hl] at this; exact absurd rfl this
    | cons n ns => exact ⟨ns, rfl⟩
  obtain ⟨ns, hns⟩ := hlong
  unfold ownName reportedKey
  rw [hns]
  simp only [List.head?_cons]
  by_cases hst : '*' ∈ d.firstLong
  · rw [if_pos hst]
  rw [if_neg hst]
  have hmem : Exact d o.stringKey false false ∨ Approximate d o.stringKey false false := by
    have : d ∈ candidates desc o.stringKey := by rw [hd]; exact List.mem_singleton.2 rfl
    unfold candidates at this
    split at this
    · exact .inl (by simpa using (List.mem_filter.1 this).2)
    · have := (List.mem_filter.1 this).2
      simp only [decide_eq_true_eq] at this
      exact .inr this.2
  have hl : ∀ n, n ∈ d.longNames → n = d.firstLong ∨ n.getLast? ≠ some '*' ∧ ¬ Accepts desc n := by
    intro n hn
    rw [hns] at hn
    rcases List.mem_cons.1 hn with h | h
    · exact .inl h
    · exact .inr (ha d hdm n (by rw [hns]; exact h))
  rcases hmem with (⟨n, hn, -, he⟩ | he) | ⟨n, hn, -, ⟨h0, -⟩ | ⟨stem, he, -⟩⟩
  · simp only [fold, Bool.false_eq_true, if_false] at he
    rcases hl n hn with h | h
    · rw [← h, he]
    · exact absurd (he ▸ hacc) h.2
  · simp only [fold, Bool.false_eq_true, if_false] at he
    exact absurd (he ▸ hacc) (hsh d hdm (he ▸ hk))
  · cases h0
  · simp only [fold, Bool.false_eq_true, if_false] at he
    rcases hl n hn with h | h
    · exact absurd (by rw [← h, he]; simp) hst
    · rw [he, List.getLast?_concat] at h
      exact absurd rfl h.1

/-- **C100, the environment, what holds:** if every option has one long name, or a short name only, then variables set options under their
own names. -/
theorem C100_environment_partial (entries : List Str) (desc : List OptionDesc) (pre : Str)
    (hl : ∀ d ∈ desc, d.longNames.length ≤ 1 ∧ (d.longNames ≠ [] → d.shortName = []))
    (p : Parsed) (h : parseEnvironmentPrefix entries desc pre = .ok p) : OwnNames p := by
  have hpd : p.desc = desc := by
    unfold parseEnvironmentPrefix parseEnvironment at h
    split at h
    · cases h
    · cases h; rfl
  rintro o d ⟨hom, hk, -, hd⟩
  rw [hpd] at hd
  have hdm := candidates_mem hd
  obtain ⟨h1, h2⟩ := hl d hdm
  have hmem : Exact d o.stringKey false false ∨ Approximate d o.stringKey false false := by
    have : d ∈ candidates desc o.stringKey := by rw [hd]; exact List.mem_singleton.2 rfl
    unfold candidates at this
    split at this
    · exact .inl (by simpa using (List.mem_filter.1 this).2)
    · have := (List.mem_filter.1 this).2
      simp only [decide_eq_true_eq] at this
      exact .inr this.2
  unfold ownName reportedKey
  cases hln : d.longNames with
  | nil =>
    simp only [List.head?_nil]
    rcases hmem with (⟨n, hn, -⟩ | he) | ⟨n, hn, -⟩
    · rw [hln] at hn; cases hn
    · simpa [fold] using he
    · rw [hln] at hn; cases hn
  | cons n ns =>
    have : ns = [] := by
      rw [hln] at h1
      cases ns with
      | nil => rfl
      | cons _ _ => simp at h1
    subst this
    simp only [List.head?_cons]
    by_cases hst : '*' ∈ n
    · rw [if_pos hst]
    · rw [if_neg hst]
      rcases hmem with (⟨n', hn, -, he⟩ | he) | ⟨n', hn, -, ⟨h0, -⟩ | ⟨stem, he, -⟩⟩
      · rw [hln, List.mem_singleton] at hn; subst hn; simpa [fold] using he
      · simp only [fold, Bool.false_eq_true, if_false] at he
        rw [h2 (by simp [hln])] at he
        exact absurd he.symm hk
      · cases h0
      · rw [hln, List.mem_singleton] at hn; subst hn
        simp only [fold, Bool.false_eq_true, if_false] at he
        exact absurd (by rw [he]; simp) hst

/-- What is lost: an option set under another name than its own only is, for the program, not set. It has its default, if any. -/
theorem C100_default_instead (p : Parsed) (m : VarMap) (utf8 : Bool) (h : store p {} utf8 = (m, none)) (o : Opt) (d : OptionDesc)
    (_hs : Setting p o d) (hn : ¬ Mentions p.options (ownName d o.stringKey)) :
    m.map.get? (ownName d o.stringKey) =
      (firstDefault p.desc (ownName d o.stringKey)).map fun q => { v := q.2, defaulted := true, semantic := some q.1 } :=
  ((C65_result p {} m utf8 h _).2 (.inl hn)).1

/-- If it is required, `notify` complains that it is missing. -/
theorem C100_required_missing (p : Parsed) (m : VarMap) (utf8 : Bool) (h : store p {} utf8 = (m, none)) (o : Opt) (d : OptionDesc)
    (hs : Setting p o d) (hn : ¬ Mentions p.options (ownName d o.stringKey)) (h0 : ownName d o.stringKey ≠ [])
    (hdef : firstDefault p.desc (ownName d o.stringKey) = none) (hr : d.semantic.isRequired = true) :
    ∃ display, m.notify = ([], some (missingRequired display)) := by
  have hne : ownName d o.stringKey ≠ o.stringKey := fun e => hn (by rw [e]; exact hs.mentions)
  have hkey : d.own = ownName d o.stringKey := by
    rw [← key_nil, key_eq]
    revert hne
    unfold ownName reportedKey
    cases d.longNames.head? with
    | none => intro _; rfl
    | some n =>
      dsimp only
      by_cases hst : '*' ∈ n
      · rw [if_pos hst]; intro h; exact absurd rfl h
      · rw [if_neg hst, if_neg hst]; intro _; rfl
  have hget := C100_default_instead p m utf8 h o d hs hn
  rw [hdef] at hget
  have hk : requiredNames [(p, utf8)] (ownName d o.stringKey) ≠ [] := by
    intro he
    have : d.canonicalDisplayName p.pre ∈ requiredNames [(p, utf8)] (ownName d o.stringKey) := by
      unfold requiredNames
      simp only [List.flatMap_cons, List.flatMap_nil, List.append_nil]
      exact List.mem_map.2 ⟨d, List.mem_filter.2 ⟨candidates_mem hs.option, by simp [hkey, h0, hr]⟩, rfl⟩
    rw [he] at this; cases this
  have hv : (m.get (ownName d o.stringKey)).v = none := by unfold VarMap.get; rw [hget]; rfl
  obtain ⟨k, display, -, -, -, -, -, hnot⟩ := (required_names [(p, utf8)] m (.ok h (.nil m))).1 ⟨ownName d o.stringKey, hk, hv⟩
  exact ⟨display, hnot⟩

/-! ### Not all sources -/

/-- The full claim. -/
def C100_claim : Prop := ∀ p, Source p → NoClash p.desc → ∀ m utf8, store p {} utf8 = (m, none) → FoundByName p m

def Ex.aliasDesc : List OptionDesc := [Test.od "output,out" (Test.sem { Test.vstr with required := true })]
def Ex.familyDesc : List OptionDesc := [Test.od "log*" (Test.sem Test.vstr), Test.od "verbosity,log-level" (Test.sem Test.vstr)]

theorem Ex.alias_noClash : NoClash Ex.aliasDesc := by
  intro n _
  exact Nat.le_trans (List.length_filter_le _ _) (by decide)

/-- **C100 is violated by the environment:** `APP_OUT=x` is accepted for the option `output,out`, but stored under the name `out`. -/
theorem C100_negation : ¬ C100_claim := by
  intro h
  have hp : parseEnvironmentPrefix [Test.L "APP_OUT=x"] Ex.aliasDesc (Test.L "APP_") =
      .ok { desc := Ex.aliasDesc, options := [{ stringKey := Test.L "out", value := [['x']] }] } := by rfl
  have hf := h _ (.environment _ _ _ _ hp) Ex.alias_noClash _ false (Prod.ext rfl (by rfl)) _ _ ⟨List.mem_singleton.2 rfl, by decide, rfl, rfl⟩
  obtain ⟨v, hv, -⟩ := hf
  have h0 : (store { desc := Ex.aliasDesc, options := [{ stringKey := Test.L "out", value := [['x']] }] } {} false).1.map.get? (Test.L "output") = none := by rfl
  exact absurd (h0.symm.trans hv) nofun

/-- So a program with `output` required, given `APP_OUT=x` in its environment, stops with "the option 'output' is required but missing".
On the command line `--out=x` sets `output`. -/
theorem C100_environment_alias :
    (∃ p m, parseEnvironmentPrefix [Test.L "APP_OUT=x"] Ex.aliasDesc (Test.L "APP_") = .ok p ∧ store p {} false = (m, none) ∧
      m.notify = ([], some (missingRequired (Test.L "output"))) ∧ (m.get (Test.L "out")).v = some (.scalar (.str ['x']))) ∧
    (∃ p m, ({ desc := Ex.aliasDesc } : Cmdline).parse [Test.L "--out=x"] = .ok p ∧ store p {} false = (m, none) ∧
      m.notify.2 = none ∧ (m.get (Test.L "output")).v = some (.scalar (.str ['x']))) :=
  ⟨⟨_, _, rfl, Prod.ext rfl (by rfl), by rfl, by rfl⟩, ⟨_, _, rfl, Prod.ext rfl (by rfl), by rfl, by rfl⟩⟩

/-- The same for a positional argument called by another name of the option. -/
theorem C100_positional_alias :
    ∃ p m, ({ desc := Ex.aliasDesc, positional := some { names := [Test.L "out"] } } : Cmdline).parse [['x']] = .ok p ∧ store p {} false = (m, none) ∧
      (∃ display, m.notify = ([], some (missingRequired display))) ∧ (m.get (Test.L "out")).v = some (.scalar (.str ['x'])) :=
  ⟨_, _, rfl, Prod.ext rfl (by rfl), ⟨_, by rfl⟩, by rfl⟩

/-- And in a configuration file, if another name of the option falls into a declared family. -/
theorem C100_family_alias :
    ∃ p m, parseConfigFile (str% "log-level=3\n") Ex.familyDesc false = .ok p ∧ store p {} false = (m, none) ∧
      m.map.get? (str% "verbosity") = none ∧ (m.get (str% "log-level")).v = some (.scalar (.str ['3'])) :=
  ⟨_, _, rfl, Prod.ext rfl (by rfl), by rfl, by rfl⟩

end PO
