import Verif.Props.Known
/-
C97: exactly when the store knows what an accepted command line reports.
-/
namespace PO
open Spec

/-- `name` belongs to a family of the option: a long name of it is a stem and a star, and `name` begins with the stem. -/
def Spec.InFamily (d : OptionDesc) (name : Str) : Prop := ∃ stem, stem ++ ['*'] ∈ d.longNames ∧ stem <+: name

theorem approximate_family (d : OptionDesc) (name : Str) : Approximate d name false false ↔ InFamily d name := by
  constructor
  · rintro ⟨n, hn, _, ⟨h, -⟩ | ⟨stem, e1, e2⟩⟩
    · cases h
    · simp only [fold, Bool.false_eq_true, if_false] at e1 e2
      exact ⟨stem, e1 ▸ hn, e2⟩
  · rintro ⟨stem, h1, h2⟩
    exact ⟨_, h1, by simp, .inr ⟨stem, by simp [fold], by simpa [fold] using h2⟩⟩

theorem filter_one {α : Type} (P : α → Prop) [DecidablePred P] (l : List α) (x : α) :
    l.filter (fun y => P y) = [x] ↔ ∃ a b, l = a ++ x :: b ∧ P x ∧ ∀ y ∈ a ++ b, ¬ P y := by
  constructor
  · intro h
    have hx : x ∈ l.filter (fun y => P y) := by rw [h]; simp
    obtain ⟨hm, hp⟩ := List.mem_filter.1 hx
    obtain ⟨a, b, rfl⟩ := List.append_of_mem hm
    have hp : P x := by simpa using hp
    rw [List.filter_append, List.filter_cons_of_pos (by simpa using hp)] at h
    have hlen := congrArg List.length h
    simp only [List.length_append, List.length_cons, List.length_nil] at hlen
    have ha : a.filter (fun y => P y) = [] := List.eq_nil_of_length_eq_zero (by omega)
    have hb : b.filter (fun y => P y) = [] := List.eq_nil_of_length_eq_zero (by omega)
    refine ⟨a, b, rfl, hp, fun y hy => ?_⟩
    rcases List.mem_append.1 hy with hy | hy
    · simpa using List.filter_eq_nil_iff.1 ha y hy
    · simpa using List.filter_eq_nil_iff.1 hb y hy
  · rintro ⟨a, b, rfl, hp, hno⟩
    rw [List.filter_append, List.filter_cons_of_pos (by simpa using hp)]
    rw [List.filter_eq_nil_iff.2 (fun y hy => by simpa using hno y (by simp [hy])),
      List.filter_eq_nil_iff.2 (fun y hy => by simpa using hno y (by simp [hy]))]
    rfl

theorem known_iff {desc : List OptionDesc} (hc : NoClash desc) {name : Str} (h0 : name ≠ []) :
    Known desc name ↔ (∃ d ∈ desc, Exact d name false false) ∨
      ∃ a d b, desc = a ++ d :: b ∧ InFamily d name ∧ ∀ e ∈ a ++ b, ¬ InFamily e name := by
  by_cases hex : ∃ d ∈ desc, Exact d name false false
  · obtain ⟨d, hd, he⟩ := hex
    exact ⟨fun _ => .inl ⟨d, hd, he⟩, fun _ => ⟨d, known_exact hc hd h0 he⟩⟩
  · have hx : exacts desc name false false = [] :=
      List.filter_eq_nil_iff.2 fun d hd hh => hex ⟨d, hd, by simpa using hh⟩
    have hcand : candidates desc name = desc.filter fun d => Approximate d name false false := by
      unfold candidates
      rw [hx, if_neg (by simp)]
      unfold approximates
      refine List.filter_congr fun d hd => ?_
      have : ¬ Exact d name false false := fun he => hex ⟨d, hd, he⟩
      simp [this]
    unfold Known
    rw [hcand]
    constructor
    · rintro ⟨d, hd⟩
      obtain ⟨a, b, e, hp, hno⟩ := (filter_one (fun d => Approximate d name false false) desc d).1 hd
      exact .inr ⟨a, d, b, e, (approximate_family d name).1 hp, fun y hy hf => hno y hy ((approximate_family y name).2 hf)⟩
    · rintro (h | ⟨a, d, b, e, hp, hno⟩)
      · exact absurd h hex
      · exact ⟨d, (filter_one (fun d => Approximate d name false false) desc d).2
          ⟨a, b, e, (approximate_family d name).2 hp, fun y hy hf => hno y hy ((approximate_family y name).1 hf)⟩⟩

/-- **C97, command lines, exactly when:** if no two options share a name and the positional arguments are named for known options, then the
store knows all options of an accepted command line if and only if every registered option in it that is not a positional argument is reported
under a declared name (a short name with its dash), letter for letter, or under a name that belongs to exactly one family, letter for letter. -/
theorem C97_iff (c : Cmdline) (hs : c.styleParser = none) (hc : NoClash c.desc)
    (hpos : ∀ p, c.positional = some p → ∀ n, n ∈ p.names ∨ n = p.trailing → n ≠ [] → Known c.desc n)
    (args : List Str) (p : Parsed) (h : c.parse args = .ok p) :
    AllKnown p ↔ ∀ o ∈ p.options, o.positionKey = -1 → o.unregistered = false → o.stringKey ≠ [] →
      (∃ d ∈ c.desc, o.stringKey ∈ d.longNames ∨ o.stringKey = d.shortName) ∨
        ∃ a d b, c.desc = a ++ d :: b ∧ InFamily d o.stringKey ∧ ∀ e ∈ a ++ b, ¬ InFamily e o.stringKey := by
  obtain ⟨os, hrun, rfl⟩ : ∃ os, c.run args = .ok os ∧ p = { desc := c.desc, options := os, pre := c.canonicalPrefix } := by
    unfold Cmdline.parse at h
    split at h
    · cases h
    · rename_i os hos; cases h; exact ⟨os, hos, rfl⟩
  have hex : ∀ (d : OptionDesc) (n : Str), n ≠ [] → (Exact d n false false ↔ n ∈ d.longNames ∨ n = d.shortName) := by
    intro d n hn
    unfold Exact
    simp only [fold, Bool.false_eq_true, if_false]
    constructor
    · rintro (⟨m, h1, _, h3⟩ | h)
      · exact .inl (h3 ▸ h1)
      · exact .inr h.symm
    · rintro (h | h)
      · exact .inl ⟨n, h, hn, rfl⟩
      · exact .inr h.symm
  unfold AllKnown
  dsimp only
  constructor
  · intro hk o ho _ hreg h0
    rcases (known_iff hc h0).1 (hk o ho h0 hreg) with ⟨d, hd, he⟩ | hf
    · exact .inl ⟨d, hd, (hex d _ h0).1 he⟩
    · exact .inr hf
  · intro hk o ho h0 hreg
    by_cases hp : o.positionKey = -1
    · refine (known_iff hc h0).2 ?_
      rcases hk o ho hp hreg h0 with ⟨d, hd, he⟩ | hf
      · exact .inl ⟨d, hd, (hex d _ h0).2 he⟩
      · exact .inr hf
    · have hmem : o ∈ positionals os := List.mem_filter.2 ⟨ho, by simpa using hp⟩
      obtain ⟨i, hi, hoi⟩ := List.mem_iff_getElem.1 hmem
      obtain ⟨-, -, hname⟩ := C08_numbered c hs args os hrun i o (by rw [← hoi]; exact List.getElem?_eq_getElem hi)
      cases hpp : c.positional with
      | none => rw [hpp] at hname; exact absurd hname h0
      | some q =>
        rw [hpp] at hname
        dsimp only at hname
        refine hpos q hpp _ ?_ h0
        unfold Positional.nameForPosition at hname
        split at hname
        · rename_i n hn; cases hname; exact .inl (List.mem_of_getElem? hn)
        · split at hname
          · cases hname
          · exact .inr (Except.ok.inj hname).symm

/-- `--fo=1` is reported as `fo`, which is no declared name and does not begin with `foo`. -/
example : ∃ p, ({ desc := Ex.wildDesc } : Cmdline).parse [str% "--fo=1"] = .ok p ∧ p.options.map (·.stringKey) = [str% "fo"] ∧
    ¬ (∃ d ∈ Ex.wildDesc, str% "fo" ∈ d.longNames) ∧ ¬ ∃ d ∈ Ex.wildDesc, InFamily d (str% "fo") := by
  refine ⟨_, rfl, rfl, by decide, ?_⟩
  rintro ⟨d, hd, hf⟩
  have := (approximate_family d _).2 hf
  clear hf
  revert d
  decide

/-- With guessing on, a full name of the family is known. -/
example : ∃ p, ({ desc := Ex.wildDesc } : Cmdline).parse [str% "--foox=1"] = .ok p ∧ AllKnown p := by
  refine ⟨_, rfl, (C97_iff { desc := Ex.wildDesc } rfl Ex.wild_noClash nofun [str% "--foox=1"] _ rfl).2 ?_⟩
  intro o ho _ _ _
  refine .inr ⟨[], Test.od "foo*" (Test.sem Test.vstr), [Test.od "bar" (Test.sem Test.vstr)], rfl, ?_, ?_⟩
  · rw [List.mem_singleton.1 ho]
    exact (approximate_family _ _).1 (by decide)
  · intro e he hf
    rw [List.mem_singleton.1 ho] at hf
    rw [List.mem_singleton.1 he] at hf
    exact absurd ((approximate_family _ _).2 hf) (by decide)

end PO
