import Verif.Model.Declare
import Verif.Spec.Raw
import Verif.Spec.OwnName
import Verif.Props.Lookup
import Verif.Props.StoreGrammar
import Verif.Props.Parse
import Verif.Props.OwnName
import Verif.Tests.Util
/-
C102: adding a group is adding its options. C103: two options with the same name are noticed.
-/
namespace PO
open Spec

/-! ### C102 -/

theorem addLoop_other (g : List OptionDesc) (k i : Nat) (o : OptionsDesc) (hi : i ≤ g.length) (hk : g.length - i ≤ k) :
    OptionsDesc.addLoop false g k i o =
      some { o with options := o.options ++ g.drop i, belong := o.belong ++ (g.drop i).map fun _ => true } := by
  induction k generalizing i o with
  | zero =>
    have : i = g.length := by omega
    subst this
    rw [OptionsDesc.addLoop]
    simp only [Bool.false_eq_true, if_false, List.getElem?_eq_none (Nat.le_refl _), List.drop_length, List.map_nil, List.append_nil]
    cases o; rfl
  | succ k ih =>
    rw [OptionsDesc.addLoop]
    by_cases h : i = g.length
    · subst h
      simp only [Bool.false_eq_true, if_false, List.getElem?_eq_none (Nat.le_refl _), List.drop_length, List.map_nil, List.append_nil]
      cases o; rfl
    · have hl : i < g.length := by omega
      simp only [Bool.false_eq_true, if_false, List.getElem?_eq_getElem hl]
      rw [ih (i + 1) _ (by omega) (by omega), List.drop_eq_getElem_cons hl]
      simp only [OptionsDesc.addOption, OptionsDesc.setBack, List.dropLast_concat, List.append_assoc, List.singleton_append, List.map_cons]

/-- **C102, another object:** `add` returns, and the result is the object with the options of the other one behind its own; a copy of the
other one is kept as a group for printing. -/
theorem C102_group_partial (o g : OptionsDesc) (fuel : Nat) (h : g.options.length ≤ fuel) : o.addDesc false fuel g = some (o.addGroup g) := by
  unfold OptionsDesc.addDesc
  rw [addLoop_other _ _ _ _ (Nat.zero_le _) (by omega)]
  simp [OptionsDesc.addGroup]

/-- Declaring all options one by one, without groups. -/
def Spec.oneByOne (o : OptionsDesc) (ds : List OptionDesc) : OptionsDesc := ds.foldl OptionsDesc.addOption o

theorem oneByOne_options (o : OptionsDesc) (ds : List OptionDesc) : (oneByOne o ds).options = o.options ++ ds := by
  unfold oneByOne
  induction ds generalizing o with
  | nil => simp
  | cons d ds ih => rw [List.foldl_cons, ih]; simp [OptionsDesc.addOption]

/-- So groups make no difference to anything but the help: every lookup, every parser and every store is the same as if the options had been
added one by one, in the order of the group. -/
theorem C102_individually_partial (o g o' : OptionsDesc) (fuel : Nat) (h : o.addDesc false fuel g = some o') :
    (∀ name ap li si, findOrThrow o'.options name ap li si = findOrThrow (oneByOne o g.options).options name ap li si) ∧
    (∀ (c : Cmdline) args, { c with desc := o'.options }.parse args = { c with desc := (oneByOne o g.options).options }.parse args) ∧
    (∀ text allow, parseConfigFile text o'.options allow = parseConfigFile text (oneByOne o g.options).options allow) ∧
    (∀ entries pre, parseEnvironmentPrefix entries o'.options pre = parseEnvironmentPrefix entries (oneByOne o g.options).options pre) := by
  have : o'.options = (oneByOne o g.options).options := by
    rw [oneByOne_options]
    have key : ∀ (k i : Nat) (o : OptionsDesc), i ≤ g.options.length → OptionsDesc.addLoop false g.options k i o = some o' →
        o'.options = o.options ++ g.options.drop i := by
      intro k
      induction k with
      | zero =>
        intro i o hi h
        rw [OptionsDesc.addLoop] at h
        simp only [Bool.false_eq_true, if_false] at h
        split at h
        · rename_i hn; cases h; rw [List.drop_eq_nil_of_le (List.getElem?_eq_none_iff.1 hn)]; simp
        · cases h
      | succ k ih =>
        intro i o hi h
        rw [OptionsDesc.addLoop] at h
        simp only [Bool.false_eq_true, if_false] at h
        split at h
        · rename_i hn; cases h; rw [List.drop_eq_nil_of_le (List.getElem?_eq_none_iff.1 hn)]; simp
        · rename_i d hd
          obtain ⟨hl, he⟩ := List.getElem?_eq_some_iff.1 hd
          rw [ih _ _ (by omega) h, List.drop_eq_getElem_cons hl, he]
          simp [OptionsDesc.addOption, OptionsDesc.setBack]
    exact key fuel 0 { o with groups := o.groups ++ [g] } (Nat.zero_le _) h
  rw [this]
  exact ⟨fun _ _ _ _ => rfl, fun _ _ => rfl, fun _ _ => rfl, fun _ _ => rfl⟩

/-- **C102, the same object:** `o.add(o)` never returns, unless there is nothing in `o`. -/
theorem C102_itself (o : OptionsDesc) : (∃ fuel o', o.addDesc true fuel o = some o') ↔ o.options = [] := by
  constructor
  · rintro ⟨fuel, o', h⟩
    by_contra hne
    have key : ∀ (k i : Nat) (o : OptionsDesc), i < o.options.length → OptionsDesc.addLoop true [] k i o = none := by
      intro k
      induction k with
      | zero =>
        intro i o hi
        rw [OptionsDesc.addLoop]
        simp only [if_true, List.getElem?_eq_getElem hi]
      | succ k ih =>
        intro i o hi
        rw [OptionsDesc.addLoop]
        simp only [if_true, List.getElem?_eq_getElem hi]
        exact ih _ _ (by simp [OptionsDesc.addOption, OptionsDesc.setBack]; omega)
    have hg : ∀ (g : List OptionDesc) (k i : Nat) (o : OptionsDesc), OptionsDesc.addLoop true g k i o = OptionsDesc.addLoop true [] k i o := by
      intro g k
      induction k with
      | zero =>
        intro i o
        rw [OptionsDesc.addLoop, OptionsDesc.addLoop]; rfl
      | succ k ih =>
        intro i o
        rw [OptionsDesc.addLoop, OptionsDesc.addLoop]
        simp only [if_true]
        split
        · rfl
        · exact ih _ _
    unfold OptionsDesc.addDesc at h
    rw [hg, key fuel 0 { o with groups := o.groups ++ [o] } (List.length_pos_iff.2 hne)] at h
    cases h
  · intro h
    refine ⟨0, { o with groups := o.groups ++ [o] }, ?_⟩
    unfold OptionsDesc.addDesc
    rw [OptionsDesc.addLoop]
    simp [h]

/-- The full claim: `add` returns, whatever its argument. -/
def C102_claim : Prop := ∀ (same : Bool) (o g : OptionsDesc), (same = true → g = o) → ∃ fuel o', o.addDesc same fuel g = some o' ∧ o'.options = o.options ++ g.options

def Ex.verboseDesc : OptionsDesc := { caption := [], lineLength := 80, minDescLen := 40, options := [Test.od "verbose" Test.unt], belong := [false], groups := [] }

theorem C102_negation : ¬ C102_claim := by
  intro h
  obtain ⟨fuel, o', h1, -⟩ := h true Ex.verboseDesc Ex.verboseDesc fun _ => rfl
  have := (C102_itself Ex.verboseDesc).1 ⟨fuel, o', h1⟩
  cases this

example : (Ex.verboseDesc.addDesc false 1 Ex.verboseDesc).map (fun o => o.options.length) = some 2 := by rfl

/-! ### C103 -/

/-- Two of the declared options go by the name. -/
def Spec.Clash (desc : List OptionDesc) (name : Str) (li si : Bool) : Prop := 2 ≤ (exacts desc name li si).length

theorem clash_ambiguous {desc : List OptionDesc} {name : Str} {li si : Bool} (h : Clash desc name li si) (ap : Bool) :
    findOrThrow desc name ap li si = .error (errAmbiguous ((exacts desc name li si).map (reportedKey · name))) := by
  rw [C01_find_throws, C01_lookup_decision]
  unfold Clash at h
  match hx : exacts desc name li si with
  | [] => rw [hx] at h; simp at h
  | [_] => rw [hx] at h; simp at h
  | d :: d' :: ds => rfl

/-- **C103, what holds: the name cannot be used.** An accepted command line sets no option by such a name, -/
theorem C103_command_line_partial (c : Cmdline) (hs : c.styleParser = none) (args : List Str) (p : Parsed) (h : c.parse args = .ok p) (o : Opt)
    (ho : o ∈ p.options) (hpos : o.positionKey = -1) (hreg : o.unregistered = false) :
    ∃ tok ∈ args, ∃ name value tokens, Written c tok name value tokens ∧
      ¬ Clash c.desc name (active c.style Style.longCaseInsensitive) (active c.style Style.shortCaseInsensitive) := by
  obtain ⟨os, hrun, rfl⟩ : ∃ os, c.run args = .ok os ∧ p = { desc := c.desc, options := os, pre := c.canonicalPrefix } := by
    unfold Cmdline.parse at h
    split at h
    · cases h
    · rename_i os hos; cases h; exact ⟨os, hos, rfl⟩
  obtain ⟨tok, ht, name, value, tokens, hw, d, -, hden, -⟩ := C06_canonical_key c hs args os hrun o ho hpos hreg
  refine ⟨tok, ht, name, value, tokens, hw, fun hc => ?_⟩
  unfold Clash at hc
  rcases hden with h1 | ⟨h1, -⟩ <;> (rw [h1] at hc; simp at hc)

/-- and no store takes it, from whatever source: the exception is `ambiguous_option` if nothing before it is refused. -/
theorem C103_store_partial (p : Parsed) (xm : VarMap) (utf8 : Bool) (name : Str) (hc : Clash p.desc name false false)
    (hm : Mentions p.options name) (hf : name ∉ xm.final) :
    (∃ f, (store p xm utf8).2 = some f) ∧
    ∀ before o after, p.options = before ++ o :: after → o.stringKey = name → name ≠ [] → o.unregistered = false → AllYield p.desc xm utf8 before →
      (store p xm utf8).2 = some (about (.ambiguousOption ((exacts p.desc name false false).map (reportedKey · name))) [] (o.originalTokens.headD []) p.pre) := by
  have hcand : 2 ≤ (candidates p.desc name).length := by
    unfold candidates
    rw [if_pos (fun h => by unfold Clash at hc; rw [h] at hc; simp at hc)]
    exact hc
  constructor
  · cases h : (store p xm utf8).2 with
    | some f => exact ⟨f, rfl⟩
    | none =>
      obtain ⟨d, _, h1, -⟩ := (C65_succeeds p xm utf8).1 h name hm hf
      rw [h1] at hcand; simp at hcand
  · intro before o after hsplit hk h0 hr hy
    subst hk
    refine (C65_fails p xm utf8 _).2 ⟨before, o, after, about (.ambiguousOption ((exacts p.desc o.stringKey false false).map (reportedKey · o.stringKey))) [] [] 0, ⟨hsplit, h0, hr, hf, hy, ?_⟩, rfl⟩
    have : candidates p.desc o.stringKey = exacts p.desc o.stringKey false false := by
      unfold candidates
      rw [if_pos (fun h => by unfold Clash at hc; rw [h] at hc; simp at hc)]
    rw [← this]
    exact .ambiguous hcand

/-- But nothing is reported when the options are declared, nor when they are used by other names or not at all. -/
theorem C103_silent (desc : List OptionDesc) : ∃ p m, ({ desc } : Cmdline).parse [] = .ok p ∧ store p {} false = (m, none) := by
  refine ⟨{ desc, options := [], pre := _ }, _, rfl, Prod.ext rfl ?_⟩
  rfl

/-- The full claim, as documented for `add`: no description with two options of the same name can be built. -/
def C103_claim : Prop := ∀ o, Assembled o → ∀ name, name ≠ [] → ¬ Clash o.options name false false

/-- **C103 is violated:** `add` does not compare names. -/
theorem C103_negation : ¬ C103_claim := by
  intro h
  refine h _ (.option (.option (.make (caption := []) (lineLength := 80) (minDescLen := 40) rfl) (Test.od "level,l" Test.unt)) (Test.od "length,l" Test.unt))
    (Test.L "-l") (by decide) ?_
  unfold Clash
  decide

example : Clash [Test.od "level,l" Test.unt, Test.od "length,l" Test.unt] (Test.L "-l") false false ∧
    (∃ p, ({ desc := [Test.od "level,l" Test.unt, Test.od "length,l" Test.unt] } : Cmdline).parse [Test.L "--level"] = .ok p) ∧
    ∃ f, ({ desc := [Test.od "level,l" Test.unt, Test.od "length,l" Test.unt] } : Cmdline).parse [Test.L "-l"] = .error f :=
  ⟨by unfold Clash; decide, ⟨_, rfl⟩, _, rfl⟩

end PO
