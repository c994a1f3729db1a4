import Verif.Props.SourceParts
import Verif.Props.Refusal
/-
C76: command lines compose, also where positional arguments have names.
-/
namespace PO
open Spec

namespace Spec

/-- `o'` is `o`; or `o` is a positional argument, and `o'` is the same argument `k` places further on, with the name that this place has. -/
inductive Moved (c : Cmdline) (p : Positional) (k : Nat) : Opt → Opt → Prop
  | option {o} (h : o.positionKey = -1) : Moved c p k o o
  | argument {o} (i : Nat) (name : Str) (h : o.positionKey = (i : Int)) (hn : p.nameForPosition (i + k) = .ok name) :
      Moved c p k o { o with stringKey := name, positionKey := ((i + k : Nat) : Int), caseInsensitive := caseFlag c name }

/-- The results, one by one. -/
inductive MovedAll (c : Cmdline) (p : Positional) (k : Nat) : List Opt → List Opt → Prop
  | nil : MovedAll c p k [] []
  | cons {o o' os os'} (h : Moved c p k o o') (t : MovedAll c p k os os') : MovedAll c p k (o :: os) (o' :: os')

/-- How many positional arguments there are. -/
def argumentCount (os : List Opt) : Nat := (os.filter (·.positionKey ≠ -1)).length

end Spec

namespace ComposePositional

variable {c : Cmdline} {p : Positional}

theorem labels_count {n : Nat} {os res : List Opt} (h : Labels c n os res) (hw : ∀ o ∈ os, o.stringKey ≠ [] → o.positionKey = -1) :
    argumentCount res = (os.filter (·.stringKey = [])).length := by
  unfold argumentCount
  induction h with
  | nil => rfl
  | @named n o os os' h t ih =>
    have := ih fun q hq => hw q (by simp [hq])
    rw [List.filter_cons_of_neg (by simpa using hw o (by simp) h), List.filter_cons_of_neg (by simpa using h), this]
  | @positional n o os os' name h hn t ih =>
    have := ih fun q hq => hw q (by simp [hq])
    rw [List.filter_cons_of_pos (by simp), List.filter_cons_of_pos (by simpa using h), List.length_cons, List.length_cons, this]

theorem name_iff {i : Nat} {name : Str} :
    p.nameForPosition i = .ok name ↔ (p.names[i]? = some name ∨ p.names.length ≤ i ∧ p.trailing ≠ [] ∧ name = p.trailing) := by
  unfold Positional.nameForPosition
  cases h : p.names[i]? with
  | some n =>
    have : i < p.names.length := (List.getElem?_eq_some_iff.1 h).1
    constructor
    · intro e; cases e; exact .inl rfl
    · rintro (e | ⟨e, -⟩)
      · cases e; rfl
      · omega
  | none =>
    have : p.names.length ≤ i := List.getElem?_eq_none_iff.1 h
    by_cases ht : p.trailing = []
    · rw [if_pos ht]
      constructor
      · intro e; cases e
      · rintro (e | ⟨-, e, -⟩)
        · cases e
        · exact absurd ht e
    · rw [if_neg ht]
      constructor
      · intro e; cases e; exact .inr ⟨this, ht, rfl⟩
      · rintro (e | ⟨-, -, rfl⟩)
        · cases e
        · rfl

theorem labels_moved (hp : c.positional = some p) (k : Nat) {n : Nat} {ys rb : List Opt} (h : Labels c n ys rb)
    (hw : ∀ o ∈ ys, o.stringKey ≠ [] → o.positionKey = -1) (hfit : ∀ i, i < n + (ys.filter (·.stringKey = [])).length → ∃ name, p.nameForPosition (i + k) = .ok name) :
    ∃ rb', Labels c (n + k) ys rb' ∧ MovedAll c p k rb rb' := by
  induction h with
  | nil => exact ⟨[], .nil, .nil⟩
  | @named n o os os' h t ih =>
    rw [List.filter_cons_of_neg (by simpa using h)] at hfit
    obtain ⟨rb', h1, h2⟩ := ih (fun q hq => hw q (by simp [hq])) hfit
    exact ⟨_, .named h h1, .cons (.option (hw o (by simp) h)) h2⟩
  | @positional n o os os' name h hn t ih =>
    rw [List.filter_cons_of_pos (by simpa using h), List.length_cons] at hfit
    obtain ⟨rb', h1, h2⟩ := ih (fun q hq => hw q (by simp [hq])) (fun i hi => hfit i (by omega))
    obtain ⟨name', e⟩ := hfit n (by omega)
    rw [Nat.add_right_comm] at h1
    refine ⟨_, .positional name' h ?_ h1, .cons (.argument (o := { o with stringKey := name, positionKey := n, caseInsensitive := caseFlag c name }) n name' rfl e) h2⟩
    rw [hp]
    exact name_iff.1 e

/-- There is a name for every place up to the maximum. -/
theorem named_below (n : Nat) (h : ∀ m, p.maxTotalCount = some m → n ≤ m) (i : Nat) (hi : i < n) : ∃ name, p.nameForPosition i = .ok name := by
  unfold Positional.maxTotalCount at h
  by_cases ht : p.trailing = []
  · rw [if_pos ht] at h
    have := h _ rfl
    exact ⟨p.names[i]'(by omega), name_iff.2 (.inl (List.getElem?_eq_getElem _))⟩
  · unfold Positional.nameForPosition
    rw [if_neg ht]
    cases p.names[i]? <;> exact ⟨_, rfl⟩

end ComposePositional
open ComposePositional

/-- **C76 with a positional description.** Two accepted command lines in a row (under the conditions of `C76_compose`) are accepted exactly if they do not have too many
positional arguments together. Then they give the options of the first and those of the second, with the positional arguments of the second numbered on, and named
accordingly. -/
theorem C76_positional (c : Cmdline) (hs : c.styleParser = none) (p : Positional) (hp : c.positional = some p)
    (hne : ∀ d ∈ c.desc, ∀ name, name ≠ [] → reportedKey d name ≠ []) (a b : List Str) (hlen : (a ++ b).length < 2147483648)
    (hd : ['-', '-'] ∉ a) (ra rb : List Opt) (ha : c.run a = .ok ra) (hb : c.run b = .ok rb)
    (hroom : ∀ o p, ra.getLast? = some o → rb.head? = some p → o.positionKey = -1 → p.positionKey ≠ -1 →
      ∀ d, Denotes c o.stringKey d → ¬ (d.semantic.minTokens < d.semantic.maxTokens ∧ o.value.length < d.semantic.maxTokens)) :
    ((∀ m, p.maxTotalCount = some m → argumentCount ra + argumentCount rb ≤ m) →
      ∃ rb', c.run (a ++ b) = .ok (ra ++ rb') ∧ MovedAll c p (argumentCount ra) rb rb') ∧
    ∀ m, p.maxTotalCount = some m → m < argumentCount ra + argumentCount rb → c.run (a ++ b) = .error .tooManyPositional := by
  have hl1 : a.length < 2147483648 := by rw [List.length_append] at hlen; omega
  have hl2 : b.length < 2147483648 := by rw [List.length_append] at hlen; omega
  obtain ⟨xs, xs', h1, h2, h3⟩ := (C61_grammar c hs hne a hl1 ra).1 ha
  obtain ⟨ys, ys', h4, h5, h6⟩ := (C61_grammar c hs hne b hl2 rb).1 hb
  have hpos := Cmdline.reads_loose h1 hd
  have hpos' := Cmdline.gathers_position h2 hpos
  have hw := Cmdline.gathers_named h5 (Cmdline.reads_named h4)
  have c1 := labels_count h3 (fun o ho _ => hpos' o ho)
  have c2 := labels_count h6 hw
  have hr := Cmdline.reads_append h1 hd h4
  have hg : Gathers c (xs ++ ys) (xs' ++ ys') := by
    refine Cmdline.gathers_append h2 (Cmdline.reads_singles hne h1).1 h5 ?_
    intro o q ho hq hpk hok d hden
    have hlast := Cmdline.labels_last_named h3 ho hok
    have hh := Cmdline.gathers_head h5
    rw [hq] at hh
    cases ys' with
    | nil => simp at hh
    | cons p' ys' =>
      simp at hh
      obtain ⟨q, hq1, hq2⟩ := Cmdline.labels_head_positional h6 (hh ▸ hpk)
      exact hroom _ q hlast hq1 (hpos' o (List.mem_of_getLast? ho)) hq2 d hden
  refine ⟨fun hfit => ?_, fun m hm hlt => ?_⟩
  · obtain ⟨rb', h7, h8⟩ := labels_moved hp (argumentCount ra) h6 hw (fun i hi =>
      named_below (argumentCount ra + argumentCount rb) hfit _ (by rw [c2]; omega))
    refine ⟨rb', (C61_grammar c hs hne (a ++ b) hlen _).2 ⟨xs ++ ys, xs' ++ ys', hr, hg, Cmdline.labels_append h3 hpos' h7⟩, h8⟩
  · refine (C63_refused c hs hne (a ++ b) hlen _).2 ?_
    unfold Positional.maxTotalCount at hm
    split at hm
    · rename_i ht
      cases hm
      refine .labelling p hr hg hp ht ?_
      rw [List.filter_append, List.length_append, ← c1, ← c2]
      exact hlt
    · cases hm

namespace ComposePositional

theorem moved_values {k : Nat} {c : Cmdline} {p : Positional} {rb rb' : List Opt} (h : MovedAll c p k rb rb')
    (hsame : ∀ o ∈ rb, ∀ i : Nat, o.positionKey = (i : Int) → p.nameForPosition (i + k) = .ok o.stringKey) (name : Str) :
    (occurrences rb' name).map (·.value) = (occurrences rb name).map (·.value) := by
  induction h with
  | nil => rfl
  | @cons o o' os os' hm t ih =>
    have ih := ih fun q hq => hsame q (by simp [hq])
    unfold occurrences at ih ⊢
    cases hm with
    | option => rw [List.filter_cons, List.filter_cons]; split <;> simp only [List.map_cons, ih]
    | argument i nm hk hn =>
      rw [hsame o (by simp) i hk] at hn
      cases hn
      rw [List.filter_cons, List.filter_cons]
      dsimp only
      split <;> simp only [List.map_cons, ih]

end ComposePositional

/-- **C76 with a positional description, stored.** If the positional arguments of the second command line keep their names when they are counted on (all have the same
name, or there are none in the first), the two may be stored one after the other or as one. -/
theorem C76_positional_stored (c : Cmdline) (hs : c.styleParser = none) (p : Positional) (hp : c.positional = some p)
    (hne : ∀ d ∈ c.desc, ∀ name, name ≠ [] → reportedKey d name ≠ []) (a b : List Str) (hlen : (a ++ b).length < 2147483648)
    (hd : ['-', '-'] ∉ a) (pa pb : Parsed) (ha : c.parse a = .ok pa) (hb : c.parse b = .ok pb)
    (hroom : ∀ o p, pa.options.getLast? = some o → pb.options.head? = some p → o.positionKey = -1 → p.positionKey ≠ -1 →
      ∀ d, Denotes c o.stringKey d → ¬ (d.semantic.minTokens < d.semantic.maxTokens ∧ o.value.length < d.semantic.maxTokens))
    (hfit : ∀ m, p.maxTotalCount = some m → argumentCount pa.options + argumentCount pb.options ≤ m)
    (hsame : ∀ o ∈ pb.options, ∀ i : Nat, o.positionKey = (i : Int) → p.nameForPosition (i + argumentCount pa.options) = .ok o.stringKey)
    (hc : ∀ name d, Mentions pa.options name → Mentions pb.options name → candidates c.desc name = [d] → d.semantic.isComposing = true)
    (u : Bool) (before after : List (Parsed × Bool)) :
    ∃ q, c.parse (a ++ b) = .ok q ∧
      ((∃ m, Stores {} (before ++ (q, u) :: after) m) ↔ ∃ m, Stores {} (before ++ (pa, u) :: (pb, u) :: after) m) ∧
      ∀ m m', Stores {} (before ++ (q, u) :: after) m → Stores {} (before ++ (pa, u) :: (pb, u) :: after) m' → ∀ n, m.map.get? n = m'.map.get? n := by
  unfold Cmdline.parse at ha hb ⊢
  cases e1 : c.run a with
  | error f => rw [e1] at ha; cases ha
  | ok ra =>
    cases e2 : c.run b with
    | error f => rw [e2] at hb; cases hb
    | ok rb =>
      rw [e1] at ha; cases ha
      rw [e2] at hb; cases hb
      obtain ⟨rb', h1, h2⟩ := (C76_positional c hs p hp hne a b hlen hd ra rb e1 e2 hroom).1 hfit
      rw [h1]
      refine ⟨_, rfl, ?_⟩
      apply C104_one_or_two
      · rfl
      · rfl
      · intro name
        dsimp only
        rw [occurrences_append, List.map_append, moved_values h2 hsame]
      · exact hc

/-! `prog src dst more…`: the second part is counted on. -/

def Ex.copyLine : Cmdline :=
  { desc := [Test.od "verbose,v" Test.unt, Test.od "src" (Test.sem Test.vstr), Test.od "dst" (Test.sem Test.vstr)], positional := some { names := [Test.L "src", Test.L "dst"] } }

example : ∃ ra rb rb', Ex.copyLine.run [Test.L "x", Test.L "-v"] = .ok ra ∧ Ex.copyLine.run [Test.L "y"] = .ok rb ∧
    Ex.copyLine.run [Test.L "x", Test.L "-v", Test.L "y"] = .ok (ra ++ rb') ∧ rb.map (·.stringKey) = [Test.L "src"] ∧ rb'.map (·.stringKey) = [Test.L "dst"] ∧
    argumentCount ra = 1 ∧ Ex.copyLine.run [Test.L "x", Test.L "-v", Test.L "y", Test.L "z"] = .error .tooManyPositional :=
  ⟨_, _, _, rfl, rfl, rfl, rfl, rfl, rfl, rfl⟩

end PO
