import Verif.Props.Grammar
/-
C76: command lines compose.
-/
namespace PO
open Spec

namespace Cmdline

variable {c : Cmdline}

theorem reads_append {a b : List Str} {xs ys : List Opt} (h : Reads c a xs) (hd : ['-', '-'] ∉ a) (hb : Reads c b ys) : Reads c (a ++ b) (xs ++ ys) := by
  induction h with
  | nil => exact hb
  | plain hp hn t ih => exact .plain hp hn (ih fun hh => hd (by simp [hh]))
  | terminator hu => exact absurd (by simp) hd
  | @option tok items taken os rest more hs hc t ih =>
    rw [List.append_assoc, List.append_assoc]
    exact .option hs hc (ih fun hh => hd (by simp [hh]))

theorem gathers_nil {os' : List Opt} (h : Gathers c [] os') : os' = [] := by
  generalize e : ([] : List Opt) = xs at h
  cases h with
  | nil => rfl
  | positional => cases e
  | keep => cases e
  | take => cases e

theorem gathers_append {xs xs' ys ys' : List Opt} (h : Gathers c xs xs') (hs : Singles xs) (hy : Gathers c ys ys')
    (hb : ∀ o p, xs'.getLast? = some o → ys.head? = some p → p.stringKey = [] → o.stringKey ≠ [] → ∀ d, Denotes c o.stringKey d → ¬ HasRoom d o) :
    Gathers c (xs ++ ys) (xs' ++ ys') := by
  induction h with
  | nil => exact hy
  | @positional o os os' h t ih =>
    refine .positional h (ih (fun q hq => hs q (by simp [hq])) ?_)
    intro o' p ho
    refine hb o' p ?_
    rw [List.getLast?_cons, ho]
    rfl
  | @keep o os os' h hr t ih =>
    refine .keep h hr (ih (fun q hq => hs q (by simp [hq])) ?_)
    intro o' p ho
    refine hb o' p ?_
    rw [List.getLast?_cons, ho]
    rfl
  | @take o ps os os' d h hd hr hp hmax t ih =>
    have := ih (fun q hq => hs q (by simp [hq])) (by
      intro o' p ho
      refine hb o' p ?_
      rw [List.getLast?_cons, ho]
      rfl)
    rw [List.cons_append, List.append_assoc]
    refine .take d h hd hr hp ?_ this
    rcases hmax with hm | ⟨hm, hl⟩
    · exact .inl hm
    · refine .inr ⟨hm, ?_⟩
      intro p hpe
      cases os with
      | cons q os => exact hl p hpe
      | nil =>
        intro hloose
        have e := gathers_nil t
        subst e
        refine hb _ p rfl hpe hloose.1 h d hd ⟨hr.1, ?_⟩
        show (o.value ++ ps.flatMap (·.value)).length < _
        rw [List.length_append, flatMap_value_length ps (fun q hq => ⟨(hp q hq).1, (hp q hq).2, hs q (by simp [hq]) (hp q hq).1⟩)]
        omega

/-- Only positional arguments are marked. -/
theorem reads_named {args : List Str} {os : List Opt} (h : Reads c args os) : ∀ o ∈ os, o.stringKey ≠ [] → o.positionKey = -1 := by
  induction h with
  | nil => simp
  | plain _ _ _ ih =>
    intro o ho hk
    rcases List.mem_cons.1 ho with rfl | ho
    · rfl
    · exact ih o ho hk
  | terminator =>
    intro o ho hk
    obtain ⟨t, _, rfl⟩ := List.mem_map.1 ho
    exact absurd rfl hk
  | option _ hc _ ih =>
    intro o ho hk
    rcases List.mem_append.1 ho with ho | ho
    · obtain ⟨i, _, t, hc⟩ := completesAll_mem hc o ho
      cases hc <;> rfl
    · exact ih o ho hk

theorem gathers_named {os os' : List Opt} (h : Gathers c os os') (hl : ∀ o ∈ os, o.stringKey ≠ [] → o.positionKey = -1) :
    ∀ o ∈ os', o.stringKey ≠ [] → o.positionKey = -1 := by
  induction h with
  | nil => simp
  | positional _ _ ih | keep _ _ _ ih =>
    intro o ho
    rcases List.mem_cons.1 ho with rfl | ho
    · exact hl _ (by simp)
    · exact ih (fun q hq => hl q (by simp [hq])) o ho
  | @take o1 ps os os' d h hd hr hp hmax t ih =>
    intro o ho
    rcases List.mem_cons.1 ho with rfl | ho
    · exact hl o1 (by simp)
    · exact ih (fun q hq => hl q (by simp [hq])) o ho

theorem labels_head_positional {n : Nat} {p : Opt} {os res : List Opt} (h : Labels c n (p :: os) res) (hp : p.stringKey = []) :
    ∃ q, res.head? = some q ∧ q.positionKey ≠ -1 := by
  cases h with
  | named hk => exact absurd hp hk
  | positional name hk hn t => exact ⟨_, rfl, by simp only; omega⟩

theorem labels_last_named {n : Nat} {o : Opt} {os res : List Opt} (h : Labels c n os res) (ho : os.getLast? = some o) (hk : o.stringKey ≠ []) :
    res.getLast? = some { o with caseInsensitive := caseFlag c o.stringKey } := by
  induction h with
  | nil => simp at ho
  | @named n o1 os os' h t ih =>
    cases os with
    | nil => cases t; simp at ho; subst ho; rfl
    | cons q os =>
      rw [List.getLast?_cons_cons] at ho
      rw [List.getLast?_cons, ih ho]
      rfl
  | @positional n o1 os os' name h hn t ih =>
    cases os with
    | nil => simp at ho; subst ho; exact absurd h hk
    | cons q os =>
      rw [List.getLast?_cons_cons] at ho
      rw [List.getLast?_cons, ih ho]
      rfl

/-- The positional argument, `k` places further on. -/
def shift (k : Nat) (o : Opt) : Opt := if o.positionKey = -1 then o else { o with positionKey := o.positionKey + k }

theorem labels_shift (hc : c.positional = none) {n : Nat} {ys rb : List Opt} (k : Nat) (h : Labels c n ys rb)
    (hw : ∀ o ∈ ys, o.stringKey ≠ [] → o.positionKey = -1) : Labels c (n + k) ys (rb.map (shift k)) := by
  induction h with
  | nil => exact .nil
  | @named n o os os' h t ih =>
    have := ih fun q hq => hw q (by simp [hq])
    rw [List.map_cons]
    unfold shift
    rw [if_pos (hw o (by simp) h)]
    exact .named h this
  | @positional n o os os' name h hn t ih =>
    have := ih fun q hq => hw q (by simp [hq])
    rw [List.map_cons]
    have e : shift k { o with stringKey := name, positionKey := (n : Int), caseInsensitive := caseFlag c name } =
        { o with stringKey := name, positionKey := ((n + k : Nat) : Int), caseInsensitive := caseFlag c name } := by
      unfold shift
      rw [if_neg (by simp only; omega)]
      simp
    rw [e]
    refine .positional name h ?_ (by rwa [Nat.add_right_comm] at this)
    rw [hc] at hn ⊢
    exact hn

theorem labels_append {n : Nat} {xs ys rx ry : List Opt} (h : Labels c n xs rx) (hw : ∀ o ∈ xs, o.positionKey = -1)
    (hy : Labels c (n + (rx.filter (·.positionKey ≠ -1)).length) ys ry) : Labels c n (xs ++ ys) (rx ++ ry) := by
  induction h with
  | nil => exact hy
  | @named n o os os' h t ih =>
    refine .named h (ih (fun q hq => hw q (by simp [hq])) ?_)
    rwa [List.filter_cons_of_neg (by simpa using hw o (by simp))] at hy
  | @positional n o os os' name h hn t ih =>
    refine .positional name h hn (ih (fun q hq => hw q (by simp [hq])) ?_)
    rw [List.filter_cons_of_pos (by simp), List.length_cons] at hy
    rwa [Nat.add_assoc, Nat.add_comm 1]

end Cmdline

/-- **C76:** two command lines in a row, without terminator in the first one, are read as one after the other, with the positional
arguments numbered through; provided that the first one does not end in an option that could take a positional argument at the
beginning of the second. -/
theorem C76_compose (c : Cmdline) (hs : c.styleParser = none) (hp : c.positional = none)
    (hne : ∀ d ∈ c.desc, ∀ name, name ≠ [] → reportedKey d name ≠ []) (a b : List Str) (hlen : (a ++ b).length < 2147483648)
    (hd : ['-', '-'] ∉ a) (ra rb : List Opt) (ha : c.run a = .ok ra) (hb : c.run b = .ok rb)
    (hroom : ∀ o p, ra.getLast? = some o → rb.head? = some p → o.positionKey = -1 → p.positionKey ≠ -1 →
      ∀ d, Denotes c o.stringKey d → ¬ (d.semantic.minTokens < d.semantic.maxTokens ∧ o.value.length < d.semantic.maxTokens)) :
    c.run (a ++ b) = .ok (ra ++ rb.map fun o => if o.positionKey = -1 then o else
      { o with positionKey := o.positionKey + ((ra.filter (·.positionKey ≠ -1)).length : Nat) }) := by
  have hl1 : a.length < 2147483648 := by rw [List.length_append] at hlen; omega
  have hl2 : b.length < 2147483648 := by rw [List.length_append] at hlen; omega
  obtain ⟨xs, xs', h1, h2, h3⟩ := (C61_grammar c hs hne a hl1 ra).1 ha
  obtain ⟨ys, ys', h4, h5, h6⟩ := (C61_grammar c hs hne b hl2 rb).1 hb
  have hpos := Cmdline.reads_loose h1 hd
  have hpos' := Cmdline.gathers_position h2 hpos
  refine (C61_grammar c hs hne (a ++ b) hlen _).2 ⟨xs ++ ys, xs' ++ ys', Cmdline.reads_append h1 hd h4, ?_, ?_⟩
  · refine Cmdline.gathers_append h2 (Cmdline.reads_singles hne h1).1 h5 ?_
    intro o p ho hq hpk hok d hden
    have hlast := Cmdline.labels_last_named h3 ho hok
    have hh := Cmdline.gathers_head h5
    rw [hq] at hh
    cases ys' with
    | nil => simp at hh
    | cons p' ys' =>
      simp at hh
      obtain ⟨q, hq1, hq2⟩ := Cmdline.labels_head_positional h6 (hh ▸ hpk)
      exact hroom _ q hlast hq1 (hpos' o (List.mem_of_getLast? ho)) hq2 d hden
  · have := Cmdline.labels_shift hp ((ra.filter (·.positionKey ≠ -1)).length) h6
      (Cmdline.gathers_named h5 (Cmdline.reads_named h4))
    rw [Nat.zero_add] at this
    refine Cmdline.labels_append h3 hpos' ?_
    rw [Nat.zero_add]
    exact this

/-- A switch, an option with a value and one that takes many. -/
def composeExample : Cmdline :=
  { desc := [Test.od "verbose,v" Test.unt, Test.od "out,o" (Test.sem Test.vstr), Test.od "in" (Test.sem { Test.vvec with multitoken := true })] }

example : ∃ r, composeExample.run ([Test.L "x", Test.L "-vo", Test.L "y"] ++ [Test.L "z", Test.L "--in", Test.L "a", Test.L "--", Test.L "-w"]) = .ok r ∧
    r.map (fun o => (o.positionKey, o.stringKey, o.value)) =
      [(0, [], [Test.L "x"]), (-1, Test.L "verbose", []), (-1, Test.L "out", [Test.L "y"]), (1, [], [Test.L "z"]),
        (-1, Test.L "in", [Test.L "a"]), (2, [], [Test.L "-w"])] := by
  have ha : ∃ ra, composeExample.run [Test.L "x", Test.L "-vo", Test.L "y"] = .ok ra ∧
      ra.map (fun o => (o.positionKey, o.stringKey, o.value)) =
        [(0, [], [Test.L "x"]), (-1, Test.L "verbose", []), (-1, Test.L "out", [Test.L "y"])] ∧
      ra.getLast?.map (fun o => (o.stringKey, o.value)) = some (Test.L "out", [Test.L "y"]) ∧
      (ra.filter (·.positionKey ≠ -1)).length = 1 := ⟨_, rfl, rfl, rfl, rfl⟩
  have hb : ∃ rb, composeExample.run [Test.L "z", Test.L "--in", Test.L "a", Test.L "--", Test.L "-w"] = .ok rb ∧
      (rb.map fun o => if o.positionKey = -1 then o else { o with positionKey := o.positionKey + (1 : Nat) }).map
          (fun o => (o.positionKey, o.stringKey, o.value)) =
        [(1, [], [Test.L "z"]), (-1, Test.L "in", [Test.L "a"]), (2, [], [Test.L "-w"])] := ⟨_, rfl, rfl⟩
  obtain ⟨ra, ha, ea, el, en⟩ := ha
  obtain ⟨rb, hb, eb⟩ := hb
  refine ⟨_, C76_compose composeExample rfl rfl
    (keys_nonempty _ (by intro d hd; simp only [composeExample, List.mem_cons, List.not_mem_nil, or_false] at hd; rcases hd with rfl | rfl | rfl <;> decide))
    _ _ (by decide) (by decide) _ _ ha hb ?_, ?_⟩
  · intro o p ho _ _ _ d hd
    rw [ho, Option.map_some, Option.some.injEq, Prod.mk.injEq] at el
    rw [el.1] at hd
    rcases hd with hd | hd
    · cases hd
      exact fun h => absurd h.1 (by decide)
    · exact absurd hd.1 nofun
  · rw [List.map_append, ea, en, eb]
    rfl

/-- The condition on the border is needed: `--in a` takes the `b` that follows it. -/
example : (composeExample.run ([Test.L "--in", Test.L "a"] ++ [Test.L "b"])).map (·.map fun o => (o.positionKey, o.stringKey, o.value)) =
    .ok [(-1, Test.L "in", [Test.L "a", Test.L "b"])] := by rfl

/-- The terminator changes the meaning of everything after it. -/
example : (composeExample.run ([Test.L "--"] ++ [Test.L "-v"])).map (·.map fun o => (o.positionKey, o.stringKey, o.value)) =
    .ok [(0, [], [Test.L "-v"])] := by rfl

end PO
