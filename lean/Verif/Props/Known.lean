import Verif.Spec.Known
import Verif.Props.StoreGrammar
import Verif.Props.Parse
import Verif.Props.Tokens
import Verif.Props.Config
import Verif.Props.ConfigGrammar
import Verif.Tests.Util
/-
C97: what a parser accepts, a store knows.
-/
namespace PO
open Spec

theorem known_fails {p : Parsed} (h : AllKnown p) : FailsByValue p := by
  intro xm utf8 f hf
  obtain ⟨before, o, after, e, hff, rfl⟩ := (C65_fails p xm utf8 f).1 hf
  obtain ⟨d, hd⟩ := h o (by rw [hff.split]; simp) hff.named hff.registered
  cases hff.fault with
  | unknown hu => rw [hd] at hu; cases hu
  | ambiguous hu => rw [hd] at hu; simp at hu
  | value d' a hy he => exact ⟨before, o, after, e, d', a, hff, hy, he, rfl⟩

theorem known_exact {desc : List OptionDesc} (hc : NoClash desc) {d : OptionDesc} (hd : d ∈ desc) {n : Str} (hn : n ≠ [])
    (he : Exact d n false false) : candidates desc n = [d] := by
  have hm : d ∈ exacts desc n false false := List.mem_filter.2 ⟨hd, by simpa using he⟩
  have hl := hc n hn
  unfold candidates
  match hx : exacts desc n false false with
  | [] => rw [hx] at hm; cases hm
  | [d'] => rw [hx, List.mem_singleton] at hm; subst hm; simp
  | _ :: _ :: _ => rw [hx] at hl; simp at hl

/-- **C97, command lines, what holds:** if no two options share a name and the positional arguments are named for known options, then
every registered option of an accepted command line is known to the store, provided that there are no wildcards, or that names are neither
abbreviated nor folded. So the only exceptions a store can throw are about values. -/
theorem C97_command_line_partial (c : Cmdline) (hs : c.styleParser = none) (hc : NoClash c.desc)
    (hpos : ∀ p, c.positional = some p → ∀ n, n ∈ p.names ∨ n = p.trailing → n ≠ [] → Known c.desc n)
    (hwild : (∀ d ∈ c.desc, ∀ n, d.longNames.head? = some n → '*' ∉ n) ∨
      (active c.style Style.allowGuessing = false ∧ active c.style Style.longCaseInsensitive = false ∧ active c.style Style.shortCaseInsensitive = false))
    (args : List Str) (p : Parsed) (h : c.parse args = .ok p) : AllKnown p ∧ FailsByValue p := by
  suffices hk : AllKnown p from ⟨hk, known_fails hk⟩
  obtain ⟨os, hrun, rfl⟩ : ∃ os, c.run args = .ok os ∧ p = { desc := c.desc, options := os, pre := c.canonicalPrefix } := by
    unfold Cmdline.parse at h
    split at h
    · cases h
    · rename_i os hos; cases h; exact ⟨os, hos, rfl⟩
  intro o ho hk hreg
  dsimp only at ho ⊢
  by_cases hp : o.positionKey = -1
  · obtain ⟨_, _, name, _, _, _, d, hd, hden, hkey⟩ := C06_canonical_key c hs args os hrun o ho hp hreg
    rcases key_cases d name with hcan | hcan
    · rw [key_eq, ← hkey] at hcan
      refine ⟨d, known_exact hc hd hk ?_⟩
      rcases hcan with ⟨h1, _⟩ | ⟨_, h1⟩
      · exact .inl ⟨_, List.mem_of_mem_head? h1, hk, rfl⟩
      · exact .inr (by simp [fold, h1])
    · rw [key_eq, ← hkey] at hcan
      rw [hcan]
      rcases hwild with hw | ⟨w1, w2, w3⟩
      · refine ⟨d, known_exact hc hd (hcan ▸ hk) ?_⟩
        rw [hcan] at hkey
        unfold reportedKey at hkey
        split at hkey
        · rename_i n hn
          rw [if_neg (hw d hd n hn)] at hkey
          exact .inl ⟨n, List.mem_of_mem_head? hn, hkey ▸ hcan ▸ hk, by simp [fold, hkey]⟩
        · exact .inr (by simp [fold, hkey])
      · refine ⟨d, ?_⟩
        unfold Denotes at hden
        dsimp only at hden
        rw [w1, w2, w3] at hden
        unfold candidates
        rcases hden with hden | ⟨h1, h2⟩
        · rw [hden]; simp
        · rw [h1, if_neg (by simp)]; exact h2
  · have hmem : o ∈ positionals os := List.mem_filter.2 ⟨ho, by simpa using hp⟩
    obtain ⟨i, hi, hoi⟩ := List.mem_iff_getElem.1 hmem
    obtain ⟨-, -, hname⟩ := C08_numbered c hs args os hrun i o (by rw [← hoi]; exact List.getElem?_eq_getElem hi)
    cases hpp : c.positional with
    | none => rw [hpp] at hname; exact absurd hname hk
    | some q =>
      rw [hpp] at hname
      dsimp only at hname
      refine hpos q hpp _ ?_ hk
      unfold Positional.nameForPosition at hname
      split at hname
      · rename_i n hn; cases hname; exact .inl (List.mem_of_getElem? hn)
      · split at hname
        · cases hname
        · exact .inr (Except.ok.inj hname).symm

theorem accepts_known {desc : List OptionDesc} (hne : ∀ d ∈ desc, d.firstLong ≠ []) (hc : NoClash desc) (ho : ¬ Overlap desc)
    (ha : ∀ d ∈ desc, ∀ n ∈ d.longNames.tail, n.getLast? ≠ some '*') {name : Str} (hk : name ≠ []) (h : Accepts desc name) : Known desc name := by
  have hlong : ∀ d ∈ desc, ∃ ns, d.longNames = d.firstLong :: ns := by
    intro d hd
    have := hne d hd
    unfold OptionDesc.firstLong at this ⊢
    cases hl : d.longNames with
    | nil => rw [hl] at this; exact absurd rfl this
    | cons n ns => exact ⟨ns, rfl⟩
  obtain ⟨d, hd, ⟨h1, -⟩ | ⟨stem, h1, h2, h3⟩⟩ := h
  · obtain ⟨ns, hns⟩ := hlong d hd
    exact ⟨d, known_exact hc hd hk (.inl ⟨d.firstLong, by rw [hns]; simp, hne d hd, by rw [h1]⟩)⟩
  · match hx : exacts desc name false false with
    | d' :: ds =>
      have hl := hc name hk
      rw [hx] at hl
      have : ds = [] := by cases ds with | nil => rfl | cons _ _ => simp at hl
      subst this
      exact ⟨d', by unfold candidates; rw [hx]; simp⟩
    | [] =>
      have hcand : candidates desc name = approximates desc name false false false := by unfold candidates; rw [hx]; simp
      have happ : ∀ d2 ∈ desc, Approximate d2 name false false → Exact d2 (stem ++ ['*']) false false := by
        intro d2 hd2 ⟨n, hn, hn0, hcase⟩
        rcases hcase with ⟨h, -⟩ | ⟨stem2, e1, e2⟩
        · cases h
        · simp only [fold, Bool.false_eq_true, if_false] at e1 e2
          obtain ⟨ns, hns⟩ := hlong d2 hd2
          rw [hns] at hn
          rcases List.mem_cons.1 hn with rfl | hn'
          · have : stem2 = stem := by
              rcases List.prefix_or_prefix_of_prefix e2 h2 with hp | hp
              · by_cases he : stem2 = stem
                · exact he
                · exact absurd ⟨d2, hd2, d, hd, stem2, stem, e1, h1, he, hp⟩ ho
              · by_cases he : stem = stem2
                · exact he.symm
                · exact absurd ⟨d, hd, d2, hd2, stem, stem2, h1, e1, he, hp⟩ ho
            subst this
            exact .inl ⟨d2.firstLong, by rw [hns]; simp, hn0, by rw [e1]⟩
          · exact absurd (by rw [e1]; simp) (ha d2 hd2 n (by rw [hns]; exact hn'))
      have hd1 : d ∈ approximates desc name false false false := by
        refine List.mem_filter.2 ⟨hd, ?_⟩
        have : ¬ Exact d name false false := by
          intro he
          have : d ∈ exacts desc name false false := List.mem_filter.2 ⟨hd, by simpa using he⟩
          rw [hx] at this; cases this
        have h' : Approximate d name false false := by
          obtain ⟨ns, hns⟩ := hlong d hd
          exact ⟨d.firstLong, by rw [hns]; simp, hne d hd, .inr ⟨stem, by simpa [fold] using h1, by simpa [fold] using h2⟩⟩
        simp [this, h']
      have hlen : (approximates desc name false false false).length ≤ 1 := by
        refine Nat.le_trans (List.Sublist.length_le ?_) (hc (stem ++ ['*']) (by simp))
        unfold approximates exacts
        have : ∀ l : List OptionDesc, (∀ x ∈ l, x ∈ desc) →
            (l.filter fun d => ¬ Exact d name false false ∧ Approximate d name false false).Sublist (l.filter fun d => Exact d (stem ++ ['*']) false false) := by
          intro l
          induction l with
          | nil => intro _; exact List.Sublist.refl _
          | cons x l ih =>
            intro hl
            have ih := ih fun y hy => hl y (by simp [hy])
            by_cases hq : Exact x (stem ++ ['*']) false false
            · rw [List.filter_cons_of_pos (p := fun d => decide (Exact d (stem ++ ['*']) false false)) (by simpa using hq)]
              by_cases hp : ¬ Exact x name false false ∧ Approximate x name false false
              · rw [List.filter_cons_of_pos (by simpa using hp)]
                exact ih.cons_cons x
              · rw [List.filter_cons_of_neg (by simpa using hp)]
                exact ih.cons x
            · rw [List.filter_cons_of_neg (p := fun d => decide (Exact d (stem ++ ['*']) false false)) (by simpa using hq)]
              rw [List.filter_cons_of_neg]
              · exact ih
              · simp only [decide_eq_true_eq]
                exact fun hp => hq (happ x (hl x (by simp)) hp.2)
        exact this desc fun x hx => hx
      rw [Known, hcand]
      match hy : approximates desc name false false false with
      | [] => rw [hy] at hd1; cases hd1
      | [d'] => exact ⟨d', rfl⟩
      | _ :: _ :: _ => rw [hy] at hlen; simp at hlen

/-- **C97, configuration files.** If no two options share a name and only first names are wildcards, every option read from a
configuration file is known to the store. -/
theorem C97_config_file (text : Str) (desc : List OptionDesc) (hc : NoClash desc)
    (ha : ∀ d ∈ desc, ∀ n ∈ d.longNames.tail, n.getLast? ≠ some '*') (p : Parsed) (h : parseConfigFile text desc false = .ok p) :
    AllKnown p ∧ FailsByValue p := by
  suffices hk : AllKnown p from ⟨hk, known_fails hk⟩
  obtain ⟨hne, ho, _, _, _, -, -, -, -, hp⟩ := (C64_accepted text desc false p).1 h
  intro o hom hk _
  have := (C28_all_accepted text desc p h o hom).1
  have hd : p.desc = desc := by rw [hp]
  rw [hd]
  exact accepts_known hne hc ho ha hk this

/-- The claim for all command lines. -/
def C97_claim : Prop := ∀ (c : Cmdline) (args : List Str) (p : Parsed), c.styleParser = none → NoClash c.desc →
  (∀ q, c.positional = some q → ∀ n, n ∈ q.names ∨ n = q.trailing → n ≠ [] → Known c.desc n) → c.parse args = .ok p → AllKnown p

namespace Ex
def wildDesc : List OptionDesc := [Test.od "foo*" (Test.sem Test.vstr), Test.od "bar" (Test.sem Test.vstr)]

theorem wild_noClash : NoClash wildDesc := by
  intro n hn
  by_cases h1 : Exact (Test.od "foo*" (Test.sem Test.vstr)) n false false
  · by_cases h2 : Exact (Test.od "bar" (Test.sem Test.vstr)) n false false
    · exfalso
      rcases h1 with ⟨a, h1, -, h1'⟩ | h1
      · rcases h2 with ⟨b, h2, -, h2'⟩ | h2
        · simp only [fold, Bool.false_eq_true, if_false] at h1' h2'
          subst h1'; subst h2'
          have e1 : (Test.od "foo*" (Test.sem Test.vstr)).longNames = [str% "foo*"] := rfl
          have e2 : (Test.od "bar" (Test.sem Test.vstr)).longNames = [str% "bar"] := rfl
          rw [e1, List.mem_singleton] at h1
          rw [e2, List.mem_singleton] at h2
          rw [h1] at h2
          exact absurd h2 (by decide)
        · exact hn h2.symm
      · exact hn h1.symm
    · simp [exacts, wildDesc, h1, h2]
  · by_cases h2 : Exact (Test.od "bar" (Test.sem Test.vstr)) n false false
    · simp [exacts, wildDesc, h1, h2]
    · simp [exacts, wildDesc, h1, h2]
end Ex

/-- **C97 is violated:** with the default style `--fo=1` abbreviates `foo*` and is accepted, under the name `fo`, which no option has. -/
theorem C97_negation : ¬ C97_claim := by
  intro h
  obtain ⟨d, hd⟩ := h { desc := Ex.wildDesc } [Test.L "--fo=1"] _ rfl Ex.wild_noClash nofun rfl _ (List.mem_singleton.2 rfl) (by decide) rfl
  have h0 : candidates Ex.wildDesc (str% "fo") = [] := rfl
  exact absurd (h0.symm.trans hd) nofun

/-- So a program that asks for the family `foo*` ends with an unknown option if the user writes `--fo=1`, although the parser has let it pass;
other unknown names the parser refuses itself. The same for `--FOObar=1` with case-insensitive long names. -/
theorem C97_store_refuses :
    (∃ p, ({ desc := Ex.wildDesc } : Cmdline).parse [str% "--fo=1"] = .ok p ∧ (store p {} false).2 = some (about .unknownOption [] (str% "--fo=1") p.pre)) ∧
    (∃ p, ({ desc := Ex.wildDesc, style := 503 ||| Style.longCaseInsensitive } : Cmdline).parse [str% "--FOObar=1"] = .ok p ∧
      (store p {} false).2 = some (about .unknownOption [] (str% "--FOObar=1") p.pre)) ∧
    ∃ f, ({ desc := Ex.wildDesc } : Cmdline).parse [str% "--xyz=1"] = .error f :=
  ⟨⟨_, rfl, by rfl⟩, ⟨_, rfl, by rfl⟩, _, rfl⟩

/-- Why names must not be shared: the parser, folding long names only, tells `---X`, the long name, from the short name `X`; the store does not. (Where
names are folded alike, the second pass of the parser notices that they are shared.) -/
theorem C97_clash : ∃ p, ({ desc := [Test.od "-X" (Test.sem Test.vstr), Test.od ",X" (Test.sem Test.vstr)], style := 503 ||| Style.longCaseInsensitive } : Cmdline).parse
      [str% "---X=1"] = .ok p ∧
    (store p {} false).2 = some (about (.ambiguousOption [str% "-X", str% "-X"]) [] (str% "---X=1") p.pre) :=
  ⟨_, rfl, by rfl⟩

/-- Why the names of positional arguments have to be declared: the parser does not look them up. -/
theorem C97_positional : ∃ p, ({ desc := Ex.wildDesc, positional := some { names := [str% "file"] } } : Cmdline).parse [str% "x"] = .ok p ∧
    (store p {} false).2 = some (about .unknownOption [] (str% "x") p.pre) :=
  ⟨_, rfl, by rfl⟩

/-- Without abbreviations. -/
example : ∃ p, ({ desc := Ex.wildDesc, style := 503 } : Cmdline).parse [str% "--foobar=1", str% "--bar=2"] = .ok p ∧ AllKnown p ∧ FailsByValue p ∧
    p.options.map (·.stringKey) = [str% "foobar", str% "bar"] := by
  have h := C97_command_line_partial { desc := Ex.wildDesc, style := 503 } rfl Ex.wild_noClash nofun (.inr (by decide)) [str% "--foobar=1", str% "--bar=2"] _ rfl
  exact ⟨_, rfl, h.1, h.2, rfl⟩

example : ∃ p, parseConfigFile (str% "[foo]\nx=1\n") Ex.wildDesc false = .ok p ∧ p.options.map (·.stringKey) = [str% "foo.x"] ∧ AllKnown p := by
  have h : parseConfigFile (str% "[foo]\nx=1\n") Ex.wildDesc false = .ok { desc := Ex.wildDesc, options := [{ stringKey := str% "foo.x", value := [str% "1"], originalTokens := [str% "foo.x", str% "1"] }] } := by rfl
  refine ⟨_, h, rfl, (C97_config_file _ _ Ex.wild_noClash ?_ _ h).1⟩
  intro d hd n hn
  simp only [Ex.wildDesc, List.mem_cons, List.not_mem_nil, or_false] at hd
  rcases hd with rfl | rfl <;> cases hn

end PO
