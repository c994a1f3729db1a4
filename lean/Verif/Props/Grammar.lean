import Verif.Lemmas.Grammar
import Verif.Props.Positional
import Verif.Props.Tokens
/-
C61, C62: a grammar for command lines.
-/
namespace PO
open Spec

/-- **C61.** The parser accepts a command line with a result exactly if the grammar derives it: reading the tokens from
left to right (`Reads`), giving further values to options that have room (`Gathers`), and numbering and naming the positional
arguments (`Labels`). -/
theorem C61_grammar (c : Cmdline) (hs : c.styleParser = none) (hne : ∀ d ∈ c.desc, ∀ name, name ≠ [] → reportedKey d name ≠ [])
    (args : List Str) (hlen : args.length < 2147483648) (res : List Opt) :
    c.run args = .ok res ↔ ∃ os os', Reads c args os ∧ Gathers c os os' ∧ Labels c 0 os' res :=
  c.run_grammar hs hne args hlen res

/-- Hence the grammar is unambiguous. -/
theorem C61_unambiguous (c : Cmdline) (hs : c.styleParser = none) (hne : ∀ d ∈ c.desc, ∀ name, name ≠ [] → reportedKey d name ≠ [])
    (args : List Str) (hlen : args.length < 2147483648) (os1 os2 os1' os2' res1 res2 : List Opt)
    (h1 : Reads c args os1) (g1 : Gathers c os1 os1') (l1 : Labels c 0 os1' res1)
    (h2 : Reads c args os2) (g2 : Gathers c os2 os2') (l2 : Labels c 0 os2' res2) : res1 = res2 := by
  have e1 := (C61_grammar c hs hne args hlen res1).2 ⟨_, _, h1, g1, l1⟩
  have e2 := (C61_grammar c hs hne args hlen res2).2 ⟨_, _, h2, g2, l2⟩
  rw [e1] at e2
  cases e2
  rfl

/-- Each token is read in only one way. -/
theorem C61_token (c : Cmdline) (tok : Str) :
    (∀ items, Spells c tok items → ¬ Plain c tok) ∧ ∀ items items', Spells c tok items → Spells c tok items' → items = items' := by
  constructor
  · intro items h hp
    have h1 := (c.front_plain tok).2 hp
    rw [(c.front_iff tok _).2 (.inr ⟨items, h, rfl⟩)] at h1
    simp only [Except.ok.injEq, List.map_eq_nil_iff] at h1
    exact Cmdline.spells_ne h h1
  · intro items items' h h'
    have h1 := (c.front_iff tok _).2 (.inr ⟨items, h, rfl⟩)
    rw [(c.front_iff tok _).2 (.inr ⟨items', h', rfl⟩)] at h1
    simp only [Except.ok.injEq] at h1
    refine (List.map_inj_right ?_).1 h1.symm
    rintro ⟨a, b, d⟩ ⟨a', b', d'⟩ e
    simp only [Item.toOpt, Opt.mk.injEq] at e
    simp [e]

/-- Option names usually are not empty. -/
theorem keys_nonempty (c : Cmdline) (h : ∀ d ∈ c.desc, d.longNames.headD d.shortName ≠ []) :
    ∀ d ∈ c.desc, ∀ name, name ≠ [] → reportedKey d name ≠ [] := by
  intro d hd name hn
  have := h d hd
  unfold reportedKey
  cases hl : d.longNames with
  | nil => rw [hl] at this; exact this
  | cons n ns =>
    rw [hl] at this
    simp only [List.head?_cons]
    split
    · exact hn
    · exact this

/-- A switch, an option with a value and one that takes many. -/
def grammarExample : Cmdline :=
  { desc := [Test.od "verbose,v" Test.unt, Test.od "out,o" (Test.sem Test.vstr), Test.od "in" (Test.sem { Test.vvec with multitoken := true })]
    positional := some { names := [Test.L "first"], trailing := Test.L "rest" } }

example : ∃ os os' res, Reads grammarExample [Test.L "x", Test.L "-vo", Test.L "y", Test.L "--in", Test.L "a", Test.L "b", Test.L "--", Test.L "-z"] os ∧
    Gathers grammarExample os os' ∧ Labels grammarExample 0 os' res ∧ res.map (fun o => (o.stringKey, o.value)) =
      [(Test.L "first", [Test.L "x"]), (Test.L "verbose", []), (Test.L "out", [Test.L "y"]), (Test.L "in", [Test.L "a", Test.L "b"]),
        (Test.L "rest", [Test.L "-z"])] := by
  have h : ∃ res, grammarExample.run [Test.L "x", Test.L "-vo", Test.L "y", Test.L "--in", Test.L "a", Test.L "b", Test.L "--", Test.L "-z"] = .ok res ∧
      res.map (fun o => (o.stringKey, o.value)) =
      [(Test.L "first", [Test.L "x"]), (Test.L "verbose", []), (Test.L "out", [Test.L "y"]), (Test.L "in", [Test.L "a", Test.L "b"]),
        (Test.L "rest", [Test.L "-z"])] := ⟨_, rfl, rfl⟩
  obtain ⟨res, h, e⟩ := h
  obtain ⟨os, os', h1, h2, h3⟩ := (C61_grammar grammarExample rfl
    (keys_nonempty _ (by intro d hd; simp only [grammarExample, List.mem_cons, List.not_mem_nil, or_false] at hd; rcases hd with rfl | rfl | rfl <;> decide))
    _ (by decide) res).1 h
  exact ⟨os, os', res, h1, h2, h3, e⟩

/-- One token, derived by hand: `-vo=` is the switch `v` and the option `o` with the value `=`. -/
example : Spells grammarExample (Test.L "-vo=") [⟨Test.L "-v", [], []⟩, ⟨Test.L "-o", [Test.L "="], [Test.L "-vo="]⟩] :=
  .short 'v' (Test.L "o=") _ (by intro f h; cases h) ⟨by unfold Enabled; decide, by unfold Enabled; decide⟩ rfl (by decide)
    (fun h => absurd h (by unfold Enabled; decide))
    (.switch 'v' _ _ (by decide) ⟨by unfold Enabled; decide, _, .inl rfl, rfl⟩
      (.value 'o' _ (by decide) (.inl ⟨_, .inl rfl⟩) (by
        rintro ⟨_, d, hd, hm⟩
        rcases hd with hd | ⟨hd, _⟩
        · cases hd; revert hm; decide
        · cases hd)))

/-! ### Maximality -/

namespace Cmdline

/-- Not after the terminator. -/
theorem reads_loose {c : Cmdline} {args : List Str} {os : List Opt} (h : Reads c args os) (hd : ['-', '-'] ∉ args) :
    ∀ o ∈ os, o.positionKey = -1 := by
  induction h with
  | nil => simp
  | plain _ _ _ ih =>
    intro o ho
    rcases List.mem_cons.1 ho with rfl | ho
    · rfl
    · exact ih (fun h => hd (by simp [h])) o ho
  | terminator => simp at hd
  | option _ hc _ ih =>
    intro o ho
    rcases List.mem_append.1 ho with ho | ho
    · obtain ⟨i, _, t, hc⟩ := completesAll_mem hc o ho
      cases hc <;> rfl
    · exact ih (fun h => hd (by simp [h])) o ho

theorem gathers_head {c : Cmdline} {os os' : List Opt} (h : Gathers c os os') :
    (os.head?.map (·.stringKey)) = (os'.head?.map (·.stringKey)) := by
  cases h <;> rfl

theorem gathers_full {c : Cmdline} {os os' : List Opt} (h : Gathers c os os') (hs : Singles os) (hl : ∀ o ∈ os, o.positionKey = -1)
    (pre post : List Opt) (o p : Opt) (e : os' = pre ++ o :: p :: post) (ho : o.stringKey ≠ []) (hp : p.stringKey = [])
    (d : OptionDesc) (hd : Denotes c o.stringKey d) : ¬ HasRoom d o := by
  induction h generalizing pre with
  | nil => simp at e
  | @positional o1 os os' h t ih =>
    cases pre with
    | nil => simp at e; rw [e.1] at h; exact absurd h ho
    | cons x pre =>
      simp at e
      exact ih (fun q hq => hs q (by simp [hq])) (fun q hq => hl q (by simp [hq])) pre e.2
  | @keep o1 os os' h hr t ih =>
    cases pre with
    | nil =>
      simp at e
      obtain ⟨rfl, _⟩ := e
      rcases hr with hr | ⟨d', hd', hr⟩
      · have := lookup_unknown.2 hr
        rw [lookup_denotes.2 hd] at this; cases this
      · have := lookup_denotes.2 hd'
        rw [lookup_denotes.2 hd] at this
        cases this
        exact hr
    | cons x pre =>
      simp at e
      exact ih (fun q hq => hs q (by simp [hq])) (fun q hq => hl q (by simp [hq])) pre e.2
  | @take o1 ps os os' d' h hd' hr hps hmax t ih =>
    cases pre with
    | nil =>
      simp at e
      obtain ⟨rfl, e⟩ := e
      have := lookup_denotes.2 hd'
      rw [lookup_denotes.2 hd] at this
      cases this
      rintro ⟨_, hroom⟩
      simp only [List.length_append] at hroom
      rw [flatMap_value_length ps (fun q hq => ⟨(hps q hq).1, (hps q hq).2, hs q (by simp [hq]) (hps q hq).1⟩)] at hroom
      rcases hmax with hm | ⟨_, hm⟩
      · omega
      · have hh := gathers_head t
        rw [e] at hh
        cases hos : os.head? with
        | none => rw [hos] at hh; simp at hh
        | some q =>
          rw [hos] at hh
          simp at hh
          have hq : q ∈ os := List.mem_of_head? hos
          refine hm q hos ⟨by rw [hh, hp], ?_⟩
          rw [hl q (by simp [hq])]
          decide
    | cons x pre =>
      simp at e
      exact ih (fun q hq => hs q (by simp [hq])) (fun q hq => hl q (by simp [hq])) pre e.2

theorem labels_split {c : Cmdline} {n : Nat} {os res : List Opt} (h : Labels c n os res) (pre post : List Opt) (o p : Opt)
    (e : res = pre ++ o :: p :: post) (hw : ∀ o ∈ os, o.positionKey = -1) (ho : o.positionKey = -1) (hp : p.positionKey ≠ -1) :
    ∃ pre' post' o' p', os = pre' ++ o' :: p' :: post' ∧ o'.stringKey ≠ [] ∧ p'.stringKey = [] ∧ o = { o' with caseInsensitive := caseFlag c o'.stringKey } := by
  induction h generalizing pre with
  | nil => simp at e
  | @named n o1 os os' hk t ih =>
    cases pre with
    | nil =>
      simp at e
      obtain ⟨rfl, e⟩ := e
      cases t with
      | nil => simp at e
      | @named _ o2 os2 os2' hk2 t2 =>
        simp at e
        rw [← e.1] at hp
        exact absurd (hw o2 (by simp)) hp
      | @positional _ o2 os2 os2' name hk2 hn t2 => exact ⟨[], os2, o1, o2, rfl, hk, hk2, rfl⟩
    | cons x pre =>
      simp at e
      obtain ⟨pre', post', o', p', rfl, h⟩ := ih pre e.2 (fun q hq => hw q (by simp [hq]))
      exact ⟨o1 :: pre', post', o', p', rfl, h⟩
  | @positional n o1 os os' name hk hn t ih =>
    cases pre with
    | nil =>
      simp at e
      rw [← e.1] at ho
      simp at ho
    | cons x pre =>
      simp at e
      obtain ⟨pre', post', o', p', rfl, h⟩ := ih pre e.2 (fun q hq => hw q (by simp [hq]))
      exact ⟨o1 :: pre', post', o', p', rfl, h⟩

theorem gathers_position {c : Cmdline} {os os' : List Opt} (h : Gathers c os os') (hl : ∀ o ∈ os, o.positionKey = -1) : ∀ o ∈ os', o.positionKey = -1 := by
  induction h with
  | nil => simp
  | positional _ _ ih | keep _ _ _ ih =>
    intro o ho
    rcases List.mem_cons.1 ho with rfl | ho
    · exact hl _ (by simp)
    · exact ih (fun q hq => hl q (by simp [hq])) o ho
  | @take o1 ps os os' d h hd hr hp hmax t ih =>
    intro o ho
    rcases List.mem_cons.1 ho with rfl | ho
    · exact hl o1 (by simp)
    · exact ih (fun q hq => hl q (by simp [hq])) o ho

end Cmdline

/-- **C62.** An option that may take more values takes as many of the positional arguments that follow as it can: on a command line
without the terminator, an option directly before a positional argument of the result is full. -/
theorem C62_maximal (c : Cmdline) (hs : c.styleParser = none) (hne : ∀ d ∈ c.desc, ∀ name, name ≠ [] → reportedKey d name ≠ [])
    (args : List Str) (hlen : args.length < 2147483648) (hd : ['-', '-'] ∉ args) (res : List Opt) (h : c.run args = .ok res)
    (pre post : List Opt) (o p : Opt) (e : res = pre ++ o :: p :: post) (ho : o.positionKey = -1) (hp : p.positionKey ≠ -1)
    (d : OptionDesc) (hden : Denotes c o.stringKey d) (hmm : d.semantic.minTokens < d.semantic.maxTokens) :
    d.semantic.maxTokens ≤ o.value.length := by
  obtain ⟨os, os', hr, hg, hl⟩ := (C61_grammar c hs hne args hlen res).1 h
  have hpos := Cmdline.reads_loose hr hd
  obtain ⟨pre', post', o', p', e', h1, h2, rfl⟩ := Cmdline.labels_split hl pre post o p e (Cmdline.gathers_position hg hpos) ho hp
  have := Cmdline.gathers_full hg (Cmdline.reads_singles hne hr).1 hpos pre' post' o' p' e' h1 h2 d hden
  exact Nat.le_of_not_lt fun hlt => this ⟨hmm, hlt⟩

/-- An option with an implicit value, at most one. -/
def maximalExample : Cmdline := { desc := [Test.od "v" (Test.sem { Test.vstr with implicit := some (.scalar (.str (Test.L "i")), Test.L "i") })] }

example : (maximalExample.run [Test.L "--v", Test.L "x", Test.L "y"]).map (·.map fun o => (o.positionKey, o.stringKey, o.value)) =
    .ok [(-1, Test.L "v", [Test.L "x"]), (0, [], [Test.L "y"])] := by rfl

/-- The terminator keeps what follows from it. -/
example : (maximalExample.run [Test.L "--v", Test.L "--", Test.L "y"]).map (·.map fun o => (o.positionKey, o.stringKey, o.value)) =
    .ok [(-1, Test.L "v", []), (0, [], [Test.L "y"])] := by rfl

/-- How many values there are in all. -/
def Cmdline.amount (os : List Opt) : Nat := (os.map (·.value.length)).sum

namespace Cmdline

theorem amount_append (a b : List Opt) : amount (a ++ b) = amount a + amount b := by
  unfold amount
  rw [List.map_append, List.sum_append]

theorem amount_cons (a : Opt) (b : List Opt) : amount (a :: b) = a.value.length + amount b := rfl

theorem amount_mem {o : Opt} {os : List Opt} (h : o ∈ os) : o.value.length ≤ amount os := by
  induction os with
  | nil => cases h
  | cons a os ih =>
    rw [amount_cons]
    rcases List.mem_cons.1 h with rfl | h
    · omega
    · have := ih h; omega

theorem group_amount {c : Cmdline} {tok t : Str} {items : List Item} (h : Group c tok t items) : (items.map (·.value.length)).sum ≤ 1 := by
  induction h with
  | last a h => simp
  | value a v hv h hs => simp
  | switch a t items ht h g ih => simpa using ih

theorem spells_amount {c : Cmdline} {tok : Str} {items : List Item} (h : Spells c tok items) : (items.map (·.value.length)).sum ≤ 1 := by
  cases h with
  | additional f hf hn => split <;> simp
  | short a t items hu hs ht ha hd hg => exact group_amount hg
  | slash a t hu hs ht hd => split <;> simp
  | _ => simp

theorem completes_amount {c : Cmdline} {i : Item} {taken : List Str} {o : Opt} (h : Completes c i taken o) : o.value.length = i.value.length + taken.length := by
  cases h with
  | nameless h => simp
  | unknown h hn hu => simp
  | known d taken h hd hlen htake hs => simp

theorem completesAll_amount {c : Cmdline} {is : List Item} {taken : List Str} {os : List Opt} (h : CompletesAll c is taken os) :
    amount os = (is.map (·.value.length)).sum + taken.length := by
  induction h with
  | one h => rw [amount_cons, completes_amount h]; simp [amount]
  | cons h t ih => rw [amount_cons, completes_amount h, ih]; simp; omega

/-- There are no more values than tokens. -/
theorem reads_amount {c : Cmdline} {args : List Str} {os : List Opt} (h : Reads c args os) : amount os ≤ args.length := by
  induction h with
  | nil => exact Nat.le_refl 0
  | plain hp hd t ih => rw [amount_cons, List.length_cons]; simp only [List.length_cons, List.length_nil]; omega
  | @terminator rest hu =>
    rw [List.length_cons]
    refine Nat.le_succ_of_le ?_
    clear hu
    induction rest with
    | nil => exact Nat.le_refl 0
    | cons a r ih => rw [List.map_cons, amount_cons, List.length_cons]; simp only [List.length_cons, List.length_nil]; omega
  | option hs hc t ih =>
    have h1 := spells_amount hs
    have h2 := completesAll_amount hc
    rw [amount_append, List.length_append, List.length_cons]
    omega

theorem flatMap_amount (ps : List Opt) : (ps.flatMap (·.value)).length = amount ps := by
  induction ps with
  | nil => rfl
  | cons p ps ih => rw [List.flatMap_cons, List.length_append, ih, amount_cons]

theorem gathers_amount {c : Cmdline} {os os' : List Opt} (h : Gathers c os os') : amount os' = amount os := by
  induction h with
  | nil => rfl
  | positional h t ih => rw [amount_cons, amount_cons, ih]
  | keep h hr t ih => rw [amount_cons, amount_cons, ih]
  | take d h hd hr hp hmax t ih =>
    rw [amount_cons, amount_cons, amount_append, ih]
    dsimp only
    rw [List.length_append, flatMap_amount]
    omega

theorem labels_amount {c : Cmdline} {n : Nat} {os res : List Opt} (h : Labels c n os res) : amount res = amount os := by
  induction h with
  | nil => rfl
  | named h t ih => rw [amount_cons, amount_cons, ih]
  | positional name h hn t ih => rw [amount_cons, amount_cons, ih]

end Cmdline

/-- **C62, multitoken options.** Nothing is left of the positional arguments that follow a multitoken option. -/
theorem C62_multitoken (c : Cmdline) (hs : c.styleParser = none) (hne : ∀ d ∈ c.desc, ∀ name, name ≠ [] → reportedKey d name ≠ [])
    (args : List Str) (hlen : args.length < 2147483648) (hd : ['-', '-'] ∉ args) (res : List Opt) (h : c.run args = .ok res)
    (pre post : List Opt) (o p : Opt) (e : res = pre ++ o :: p :: post) (ho : o.positionKey = -1)
    (d : OptionDesc) (hden : Denotes c o.stringKey d) (env : Env) (t : TypedValue) (ht : d.semantic = t.toSemantic env) (hm : t.multitoken = true) :
    p.positionKey = -1 := by
  refine Classical.byContradiction fun hp => ?_
  have hmax : d.semantic.maxTokens = 4294967295 := by
    rw [ht]
    simp [TypedValue.toSemantic, TypedValue.maxTokens, hm, uintMax]
  have hmin : d.semantic.minTokens ≤ 1 := by
    rw [ht]
    simp only [TypedValue.toSemantic, TypedValue.minTokens]
    split <;> omega
  have h1 := C62_maximal c hs hne args hlen hd res h pre post o p e ho hp d hden (by omega)
  obtain ⟨os, os', hr, hg, hl⟩ := (C61_grammar c hs hne args hlen res).1 h
  have h2 : o.value.length ≤ Cmdline.amount res := Cmdline.amount_mem (by rw [e]; simp)
  rw [Cmdline.labels_amount hl, Cmdline.gathers_amount hg] at h2
  have h3 := Cmdline.reads_amount hr
  omega

/-- A multitoken option before, between and after other things. -/
example : (Cmdline.run { desc := [Test.od "all" (Test.sem { Test.vvec with multitoken := true }), Test.od "v" Test.unt] }
      [Test.L "a", Test.L "--all", Test.L "b", Test.L "c", Test.L "d", Test.L "--v", Test.L "e"]).map (·.map fun o => (o.positionKey, o.stringKey, o.value)) =
    .ok [(0, [], [Test.L "a"]), (-1, Test.L "all", [Test.L "b", Test.L "c", Test.L "d"]), (-1, Test.L "v", []), (1, [], [Test.L "e"])] := by rfl

/-- **C08, with the names as declared.** The `i`-th positional argument has the name of the run it falls in, or else the trailing name. -/
theorem C08_declared (l : List (Str × Option Nat)) (hl : trailingNames l = [] ∨ ∃ t, t ≠ [] ∧ trailingNames l = [t]) :
    ∃ p, addAll {} l = .ok p ∧ ∀ (c : Cmdline), c.styleParser = none → c.positional = some p → ∀ (args : List Str) (res : List Opt), c.run args = .ok res →
      (trailingNames l = [] → (positionals res).length ≤ totalCount l) ∧
      ∀ (i : Nat) (o : Opt), (positionals res)[i]? = some o → nameAt l i = some o.stringKey ∨ totalCount l ≤ i ∧ trailingNames l = [o.stringKey] := by
  rcases hl with hl | ⟨t, ht, hl⟩
  · obtain ⟨p, hp, hm, hn⟩ := C07_positional_names l hl
    refine ⟨p, hp, fun c hs hc args res h => ?_⟩
    have hlen : (positionals res).length ≤ totalCount l := by
      obtain ⟨os, r2, name, hpass, hrg, hr, rfl, hw, hnm⟩ := c.run_passes hs args res h
      rw [hc] at hnm
      rw [c.positionals_number _ _ hw, List.length_mapIdx]
      have h2 := hnm.2
      unfold Cmdline.tooMany at h2
      rw [hm] at h2
      simpa using h2
    refine ⟨fun _ => hlen, fun i o ho => .inl ?_⟩
    have hi := (List.getElem?_eq_some_iff.1 ho).1
    obtain ⟨_, _, h3⟩ := C08_numbered c hs args res h i o ho
    rw [hc] at h3
    obtain ⟨n, h4, h5⟩ := hn i (by omega)
    simp only at h3
    rw [h3] at h5
    cases h5
    exact h4
  · obtain ⟨p, hp, hm, hn⟩ := C07_positional_trailing l t ht hl
    refine ⟨p, hp, fun c hs hc args res h => ⟨fun h0 => ?_, fun i o ho => ?_⟩⟩
    · rw [hl] at h0; cases h0
    · obtain ⟨_, _, h3⟩ := C08_numbered c hs args res h i o ho
      rw [hc] at h3
      obtain ⟨h4, h5⟩ := hn i
      simp only at h3
      rw [h4] at h3
      cases hna : nameAt l i with
      | some n => rw [hna] at h3; cases h3; exact .inl rfl
      | none =>
        rw [hna] at h3 h5
        cases h3
        simp at h5
        exact .inr ⟨h5, hl⟩

/-- **C07, for the arguments of a command line.** After the calls `l`, a positional argument in the run of `n`, which starts where the counts
before it end, gets the name `n`; one after all the runs gets the trailing name. -/
theorem C07_arguments (l : List (Str × Option Nat)) (hl : trailingNames l = [] ∨ ∃ t, t ≠ [] ∧ trailingNames l = [t]) :
    ∃ p, addAll {} l = .ok p ∧ ∀ (c : Cmdline), c.styleParser = none → c.positional = some p → ∀ (args : List Str) (res : List Opt), c.run args = .ok res →
      ∀ (i : Nat) (o : Opt), (positionals res)[i]? = some o →
        (∀ pre n k post, l = pre ++ (n, some k) :: post → totalCount pre ≤ i → i < totalCount pre + k → o.stringKey = n) ∧
        (totalCount l ≤ i → trailingNames l = [o.stringKey]) := by
  obtain ⟨p, hp, hall⟩ := C08_declared l hl
  refine ⟨p, hp, fun c hs hc args res h i o ho => ?_⟩
  have := (hall c hs hc args res h).2 i o ho
  constructor
  · rintro pre n k post rfl h1 h2
    have hr := nameAt_run pre post n k i h1 h2
    rcases this with h3 | ⟨h3, _⟩
    · rw [hr] at h3; cases h3; rfl
    · rw [nameAt_none _ _ h3] at hr; cases hr
  · intro h1
    rcases this with h3 | ⟨_, h3⟩
    · rw [nameAt_none _ _ h1] at h3; cases h3
    · exact h3

example : ∃ p, addAll {} [(Test.L "in", some 1), (Test.L "rest", none)] = .ok p ∧
    (({ desc := [], positional := some p } : Cmdline).run [Test.L "x", Test.L "y", Test.L "z"]).map (·.map (·.stringKey)) =
      .ok [Test.L "in", Test.L "rest", Test.L "rest"] := ⟨_, rfl, rfl⟩

end PO
