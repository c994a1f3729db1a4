import Verif.Lemmas.Mention
import Verif.Model.VarMap
import Verif.Tests.Util
/-
C70: an option that no token mentions does not matter.
-/
namespace PO
open Spec

/-- **C70.** Declaring one more option, anywhere among the others, changes nothing for a command line that brings up no name which the
new option has or (with nothing better at hand) nearly has: the same options result, or the same exception. -/
theorem C70_unmentioned_option (c : Cmdline) (hs : c.styleParser = none) (pre post : List OptionDesc) (hdesc : c.desc = pre ++ post)
    (d : OptionDesc) (args : List Str)
    (h : ∀ name, Mentioned c args name → Unnoticed c.desc d name (active c.style Style.allowGuessing)
      (active c.style Style.longCaseInsensitive) (active c.style Style.shortCaseInsensitive))
    (hshort : ∀ a ∈ args, ∀ x ∈ a, Unnoticed c.desc d ['-', x] false false (active c.style Style.shortCaseInsensitive)) :
    ({ c with desc := pre ++ d :: post } : Cmdline).run args = c.run args := by
  have key : ∀ n d, Mentioned c args n → c.lookup n = .ok (some d) → Mentioned c args (d.key n) := by
    intro n d' hn hl
    have hd' : d' ∈ c.desc := by
      unfold Cmdline.lookup at hl
      rw [C01_lookup_decision] at hl
      split at hl
      · rename_i hx
        cases hl
        have : d' ∈ exacts c.desc n (active c.style Style.longCaseInsensitive) (active c.style Style.shortCaseInsensitive) := by
          rw [hx]; simp
        exact (List.mem_filter.1 this).1
      · cases hl
      · cases hl
      · rename_i x _ hx
        cases hl
        have : d' ∈ approximates c.desc n (active c.style Style.allowGuessing) (active c.style Style.longCaseInsensitive)
            (active c.style Style.shortCaseInsensitive) := by
          rw [hx]; simp
        exact (List.mem_filter.1 this).1
      · cases hl
    rw [key_eq]
    unfold reportedKey
    cases hh : d'.longNames.head? with
    | none =>
      refine .short hd' ?_
      cases hl : d'.longNames with
      | nil => rfl
      | cons x xs => rw [hl] at hh; cases hh
    | some m =>
      dsimp only
      split
      · exact hn
      · rename_i hm
        exact .first hd' hh hm
  have ag : Cmdline.Agrees c (pre ++ d :: post) args (Mentioned c args) :=
    { noStyle := hs
      look := fun n hn => by
        have := h n hn
        unfold Cmdline.lookup
        rw [hdesc] at this ⊢
        exact find_unnoticed pre post d n _ _ _ this
      find := fun a ha x hx => by
        have := hshort a ha x hx
        unfold Cmdline.findShort
        rw [hdesc] at this ⊢
        dsimp only
        rw [find_unnoticed pre post d _ _ _ _ this]
        rfl
      long := fun r hr h0 => .long hr h0
      disguised := fun hd x r hx hr h0 => .disguised hd hx hr h0
      token := fun a ha h0 => .token ha h0
      letter := fun a ha x hx => .letter ha hx
      more := fun f hf a ha => .additional hf ha
      blank := fun h0 => by
        cases hf : c.additional with
        | none => exact .inl rfl
        | some f => exact .inr (.blank hf h0)
      key := key }
  exact ag.run args (fun a ha => ha)

/-- The usual case: case matters, there are no disguised options, and the new option has one long name without a wildcard and a letter.
If no token spells or abbreviates the name, the letter occurs in no token, and no declared option has either, the new option does not matter. -/
theorem C70_new_name (c : Cmdline) (hs : c.styleParser = none) (ha : c.additional = none)
    (hdis : active c.style Style.allowLongDisguise = false) (hli : active c.style Style.longCaseInsensitive = false)
    (hsi : active c.style Style.shortCaseInsensitive = false) (pre post : List OptionDesc) (hdesc : c.desc = pre ++ post)
    (d : OptionDesc) (name : Str) (x : Char) (hname : name ≠ []) (hstar : name.getLast? ≠ some '*') (hdash : name.head? ≠ some '-')
    (hlong : d.longNames = [name]) (hshort : d.shortName = ['-', x]) (args : List Str)
    (hspell : ∀ r, '-' :: '-' :: r ∈ args → r.takeWhile (· ≠ '=') ≠ [] → ¬ r.takeWhile (· ≠ '=') <+: name)
    (htoken : ∀ a ∈ args, a ≠ [] → ¬ a <+: name) (hletter : ∀ a ∈ args, x ∉ a)
    (hother : ∀ d' ∈ c.desc, name ∉ d'.longNames ∧ ['-', x] ∉ d'.longNames ∧ [] ∉ d'.longNames ∧ d'.shortName ≠ name ∧ d'.shortName ≠ ['-', x]) :
    ({ c with desc := pre ++ d :: post } : Cmdline).run args = c.run args := by
  have noApx : ∀ n g, Approximate d n g false → n <+: name := by
    rintro n g ⟨m, hm, _, (⟨_, h⟩ | ⟨stem, e, _⟩)⟩
    · rw [hlong, List.mem_singleton] at hm
      subst hm
      exact h
    · rw [hlong, List.mem_singleton] at hm
      subst hm
      refine absurd ?_ hstar
      have e' : m = stem ++ ['*'] := e
      rw [e']
      simp
  have noExact : ∀ n, n ≠ name → n ≠ ['-', x] → ¬ Exact d n false false := by
    intro n h1 h2
    rintro (⟨m, hm, _, e⟩ | e)
    · rw [hlong, List.mem_singleton] at hm
      subst hm
      exact h1 e.symm
    · rw [hshort] at e
      exact h2 e.symm
  have un : ∀ n g, ¬ n <+: name → n ≠ ['-', x] → Unnoticed c.desc d n g false false := by
    intro n g h1 h2
    exact ⟨noExact n (fun e => h1 (e ▸ List.prefix_rfl)) h2, fun h => absurd (noApx n g h) h1⟩
  have hl : ∀ y, ¬ ['-', y] <+: name := by
    rintro y ⟨t, rfl⟩
    simp at hdash
  refine C70_unmentioned_option c hs pre post hdesc d args ?_ ?_
  · rw [hli, hsi]
    intro n hn
    cases hn with
    | @long r h1 h2 =>
      refine un _ _ (hspell r h1 h2) (fun e => hletter _ h1 ?_)
      have : x ∈ r := (List.takeWhile_subset _) (by rw [e]; simp)
      simp [this]
    | disguised h1 => rw [hdis] at h1; cases h1
    | token h1 h2 =>
      refine un _ _ (htoken _ h1 h2) (fun e => hletter _ h1 (by rw [e]; simp))
    | letter h1 h2 => exact un _ _ (hl _) (fun e => hletter _ h1 (by cases e; exact h2))
    | additional h1 _ => rw [ha] at h1; cases h1
    | blank h1 _ => rw [ha] at h1; cases h1
    | @first d' _ h1 h2 _ =>
      have hm : n ∈ d'.longNames := List.mem_of_head? h2
      refine ⟨noExact n (fun e => (hother _ h1).1 (e ▸ hm)) (fun e => (hother _ h1).2.1 (e ▸ hm)), fun _ => ⟨d', h1, .inl ⟨n, hm, ?_, rfl⟩⟩⟩
      exact fun e => (hother _ h1).2.2.1 (e ▸ hm)
    | @short d' h1 _ => exact ⟨noExact _ (hother _ h1).2.2.2.1 (hother _ h1).2.2.2.2, fun _ => ⟨d', h1, .inr rfl⟩⟩
  · rw [hsi]
    intro a ha' y hy
    exact un _ _ (hl y) (fun e => hletter a ha' (by cases e; exact hy))

theorem storeLoop_unnoticed (pre post : List OptionDesc) (d : OptionDesc) (px : Nat) (utf8 : Bool) (final : SSet) (os : List Opt)
    (h : ∀ o ∈ os, o.stringKey ≠ [] → o.unregistered = false → Unnoticed (pre ++ post) d o.stringKey false false false) (m : SMap VarValue) (nf : SSet) :
    storeLoop (pre ++ d :: post) px utf8 final os m nf = storeLoop (pre ++ post) px utf8 final os m nf := by
  induction os generalizing m nf with
  | nil => rfl
  | cons o os ih =>
    have h1 : storeOne (pre ++ d :: post) px utf8 final m nf o = storeOne (pre ++ post) px utf8 final m nf o := by
      unfold storeOne
      dsimp only
      by_cases h0 : o.stringKey = []
      · rw [if_pos h0, if_pos h0]
      · rw [if_neg h0, if_neg h0]
        cases hu : o.unregistered with
        | true => rfl
        | false =>
          have hf : findOrThrow (pre ++ d :: post) o.stringKey false false false = findOrThrow (pre ++ post) o.stringKey false false false := by
            unfold findOrThrow
            rw [find_unnoticed _ _ _ _ _ _ _ (h o (by simp) h0 hu)]
          rw [hf]
    rw [storeLoop, storeLoop, h1]
    split
    · rfl
    · exact ih (fun o' ho' => h o' (by simp [ho'])) _ _

theorem applyAll_skip (px : Nat) (pre post : List OptionDesc) (d : OptionDesc) (hdef : d.semantic.applyDefault = none) (hreq : d.semantic.isRequired = false)
    (m : SMap VarValue) (req : SMap Str) : applyAll px (pre ++ d :: post) m req = applyAll px (pre ++ post) m req := by
  induction pre generalizing m req with
  | nil =>
    have : applyOne px m req d = (m, req) := by
      unfold applyOne
      dsimp only
      split
      · rfl
      · rw [hdef, hreq]
        simp
    rw [List.nil_append, List.nil_append, applyAll, this]
  | cons e pre ih =>
    rw [List.cons_append, List.cons_append, applyAll, applyAll]
    exact ih _ _

/-- Nor does an option that is not given matter to a store, if it has no default and is not required. -/
theorem C70_store (p : Parsed) (pre post : List OptionDesc) (hdesc : p.desc = pre ++ post) (d : OptionDesc)
    (hdef : d.semantic.applyDefault = none) (hreq : d.semantic.isRequired = false)
    (h : ∀ o ∈ p.options, o.stringKey ≠ [] → o.unregistered = false → Unnoticed p.desc d o.stringKey false false false)
    (xm : VarMap) (utf8 : Bool) : store { p with desc := pre ++ d :: post } xm utf8 = store p xm utf8 := by
  unfold store
  rw [hdesc] at h ⊢
  dsimp only
  rw [storeLoop_unnoticed pre post d p.pre utf8 xm.final p.options h]
  simp only [applyAll_skip p.pre pre post d hdef hreq]

/-- The new option may share a beginning with a declared one. -/
def mentionExample : Cmdline := { desc := [Test.od "out,o" (Test.sem Test.vstr), Test.od "verbose,v" Test.unt] }

example : ({ mentionExample with desc := [Test.od "out,o" (Test.sem Test.vstr), Test.od "verb,x" Test.unt, Test.od "verbose,v" Test.unt] } : Cmdline).run
      [Test.L "--out=z", Test.L "-v"] = mentionExample.run [Test.L "--out=z", Test.L "-v"] :=
  C70_new_name mentionExample rfl rfl rfl rfl rfl [Test.od "out,o" (Test.sem Test.vstr)] [Test.od "verbose,v" Test.unt] rfl
    (Test.od "verb,x" Test.unt) (Test.L "verb") 'x' (by decide) (by decide) (by decide) rfl rfl _
    (by
      intro r hr
      simp only [List.mem_cons, List.not_mem_nil, or_false] at hr
      rcases hr with h | h <;> cases h
      decide)
    (by decide) (by decide)
    (by
      intro d hd
      simp only [mentionExample, List.mem_cons, List.not_mem_nil, or_false] at hd
      rcases hd with rfl | rfl <;> decide)

/-- The hypothesis matters: `--verb` abbreviates `--verbose` until `verb` is declared itself. -/
example : (mentionExample.run [Test.L "--verb"]).map (·.map (·.stringKey)) = .ok [Test.L "verbose"] := rfl
example : (({ mentionExample with desc := mentionExample.desc ++ [Test.od "verb" Test.unt] } : Cmdline).run [Test.L "--verb"]).map (·.map (·.stringKey)) =
    .ok [Test.L "verb"] := rfl

/-- A store of `--name a` with one more option `names`, of which `name` is the beginning. -/
example (xm : VarMap) : store { desc := [Test.od "name,n" (Test.sem Test.vstr), Test.od "names" (Test.sem Test.vvec)]
                                options := [{ stringKey := Test.L "name", value := [Test.L "a"] }] } xm =
    store { desc := [Test.od "name,n" (Test.sem Test.vstr)], options := [{ stringKey := Test.L "name", value := [Test.L "a"] }] } xm :=
  C70_store { desc := [Test.od "name,n" (Test.sem Test.vstr)], options := [{ stringKey := Test.L "name", value := [Test.L "a"] }] }
    [Test.od "name,n" (Test.sem Test.vstr)] [] rfl (Test.od "names" (Test.sem Test.vvec)) rfl rfl
    (by
      intro o ho _ _
      rw [List.mem_singleton] at ho
      subst ho
      unfold Unnoticed
      decide) xm false

end PO
