import Verif.Spec.Prefixes
import Verif.Props.GrammarAll
/-
Prefixes of command lines.
-/
namespace PO
open Spec
namespace Prefixes
variable {c : Cmdline}

theorem completes_short {items : List Item} {taken : List Str} {os : List Opt} (h : CompletesAll c items taken os) {a t : List Str} (e : taken = a ++ t)
    (ht : t ≠ []) : ∃ n x, StuckAll c items a (.cmdlineSyntax .missingParameter) n x := by
  have hlt : a.length < taken.length := by
    rw [e, List.length_append]
    have := List.length_pos_iff.2 ht
    omega
  induction h with
  | one h =>
    cases h with
    | nameless => exact absurd hlt (Nat.not_lt_zero _)
    | unknown => exact absurd hlt (Nat.not_lt_zero _)
    | known d _ h hd hlen htake hsw =>
      exact ⟨_, _, .one (.missing d h hd (by omega))⟩
  | cons h _ ih =>
    obtain ⟨n, x, hs⟩ := ih e hlt
    exact ⟨n, x, .tail h hs⟩

theorem reads_prefix {args : List Str} {os : List Opt} (h : Reads c args os) (a b : List Str) (e : args = a ++ b) :
    (∃ xs ys, os = xs ++ ys ∧ Reads c a xs) ∨
    ((∃ n t, Breaks c a (.cmdlineSyntax .missingParameter) n t) ∧ ∃ b1 b2 xs ys, b = b1 ++ b2 ∧ b1 ≠ [] ∧ os = xs ++ ys ∧ Reads c (a ++ b1) xs) := by
  induction h generalizing a with
  | nil =>
    obtain ⟨rfl, rfl⟩ := List.append_eq_nil_iff.1 e.symm
    exact .inl ⟨[], [], rfl, .nil⟩
  | @plain tok rest os h hd t ih =>
    cases a with
    | nil => exact .inl ⟨[], _, rfl, .nil⟩
    | cons x a =>
      cases e
      rcases ih a rfl with ⟨xs, ys, rfl, hr⟩ | ⟨⟨n, y, hb⟩, b1, b2, xs, ys, e1, h1, rfl, hr⟩
      · exact .inl ⟨_ :: xs, ys, rfl, .plain h hd hr⟩
      · exact .inr ⟨⟨n, y, .plain h hd hb⟩, b1, b2, _ :: xs, ys, e1, h1, rfl, .plain h hd hr⟩
  | @terminator rest h =>
    cases a with
    | nil => exact .inl ⟨[], _, rfl, .nil⟩
    | cons x a =>
      cases e
      exact .inl ⟨_, _, List.map_append, .terminator h⟩
  | @option tok items taken os rest more h hc t ih =>
    cases a with
    | nil => exact .inl ⟨[], _, rfl, .nil⟩
    | cons x a =>
      rw [List.cons_append, List.cons_append] at e
      injection e with e1 e2
      subst e1
      rcases List.append_eq_append_iff.1 e2 with ⟨a', rfl, rfl⟩ | ⟨t2, rfl, rfl⟩
      · rcases ih a' rfl with ⟨xs, ys, rfl, hr⟩ | ⟨⟨n, y, hb⟩, b1, b2, xs, ys, e1, h1, rfl, hr⟩
        · exact .inl ⟨os ++ xs, ys, by rw [List.append_assoc], .option h hc hr⟩
        · refine .inr ⟨⟨n, y, .option h hc hb⟩, b1, b2, os ++ xs, ys, e1, h1, by rw [List.append_assoc], ?_⟩
          have := Reads.option h hc hr
          rwa [List.cons_append, ← List.append_assoc, ← List.cons_append, ← List.cons_append] at this
      · have hr : Reads c (tok :: (a ++ t2)) os := by
          have := Reads.option h hc (Reads.nil (c := c))
          rwa [List.append_nil, List.append_nil] at this
        by_cases ht : t2 = []
        · subst ht
          rw [List.append_nil] at hr
          exact .inl ⟨os, more, rfl, hr⟩
        · obtain ⟨n, y, hs⟩ := completes_short hc rfl ht
          exact .inr ⟨⟨n, y, .stuck h hs⟩, t2, rest, os, more, rfl, ht, rfl, hr⟩

theorem gathers_prefix {os os' : List Opt} (h : GathersAll c os os') (xs ys : List Opt) (e : os = xs ++ ys) : ∃ xs', GathersAll c xs xs' ∧ Begins xs' os' := by
  induction h generalizing xs with
  | nil =>
    obtain ⟨rfl, rfl⟩ := List.append_eq_nil_iff.1 e.symm
    exact ⟨[], .nil, .nil⟩
  | positional h t ih =>
    cases xs with
    | nil => exact ⟨[], .nil, .nil⟩
    | cons x xs =>
      cases e
      obtain ⟨xs', h1, h2⟩ := ih xs rfl
      exact ⟨_, .positional h h1, .same _ h2⟩
  | keep h hr t ih =>
    cases xs with
    | nil => exact ⟨[], .nil, .nil⟩
    | cons x xs =>
      cases e
      obtain ⟨xs', h1, h2⟩ := ih xs rfl
      exact ⟨_, .keep h hr h1, .same _ h2⟩
  | @take o ps os os' d h hd hr hp hmax t ih =>
    cases xs with
    | nil => exact ⟨[], .nil, .nil⟩
    | cons x xs =>
      rw [List.cons_append] at e
      injection e with e1 e2
      subst e1
      rcases List.append_eq_append_iff.1 e2 with ⟨xs2, rfl, rfl⟩ | ⟨ps2, rfl, rfl⟩
      · obtain ⟨xs', h1, h2⟩ := ih xs2 rfl
        refine ⟨_, .take d h hd hr hp (hmax.imp_right fun hm => ⟨hm.1, fun p hp => hm.2 p ?_⟩) h1, .same _ h2⟩
        cases xs2 with
        | nil => cases hp
        | cons => exact hp
      · have hle : xs.length + o.value.length ≤ d.semantic.maxTokens := by
          rcases hmax with hm | hm
          · rw [List.length_append] at hm; omega
          · have := hm.1; rw [List.length_append] at this; omega
        have hg := GathersAll.take (c := c) (o := o) (ps := xs) d h hd hr (fun p hx => hp p (List.mem_append_left _ hx))
          ((Nat.eq_or_lt_of_le hle).imp_right fun hm => ⟨hm, fun p hx => by cases hx⟩) .nil
        rw [List.append_nil] at hg
        refine ⟨_, hg, ?_⟩
        rw [List.flatMap_append, List.flatMap_append, ← List.append_assoc, ← List.append_assoc]
        exact .fewer _ _ _

theorem labels_prefix {n : Nat} {zs r xs : List Opt} (h : Labels c n zs r) (hb : Begins xs zs) : ∃ r', Labels c n xs r' ∧ Begins r' r := by
  induction hb generalizing n r with
  | nil => exact ⟨[], .nil, .nil⟩
  | same o t ih =>
    cases h with
    | named h t =>
      obtain ⟨r', h1, h2⟩ := ih t
      exact ⟨_, .named h h1, .same _ h2⟩
    | positional name h hn t =>
      obtain ⟨r', h1, h2⟩ := ih t
      exact ⟨_, .positional name h hn h1, .same _ h2⟩
  | fewer o vs ts =>
    cases h with
    | named h t => exact ⟨_, .named h .nil, .fewer _ _ _⟩
    | positional name h hn t => exact ⟨_, .positional name h hn .nil, .fewer _ _ _⟩

theorem textLength_append (a b : List Str) : textLength (a ++ b) = textLength a + textLength b := by
  unfold textLength
  rw [List.map_append, List.sum_append]

theorem run_prefix (hs : c.styleParser = none) {a : List Str} (hlen : textLength a < 2147483648) {xs ys os' r : List Opt} (h : Reads c a xs)
    (hg : GathersAll c (xs ++ ys) os') (hl : Labels c 0 os' r) : ∃ r', c.run a = .ok r' ∧ Begins r' r := by
  obtain ⟨xs', h1, h2⟩ := gathers_prefix hg xs ys rfl
  obtain ⟨r', h3, h4⟩ := labels_prefix hl h2
  exact ⟨r', (C61_grammar_all c hs a hlen r').2 ⟨xs, xs', h, h1, h3⟩, h4⟩

theorem stuck_longer {i : Item} {other b : List Str} {cls : ErrClass} {n t : Str} (h : Stuck c i other cls n t) (hc : cls ≠ .cmdlineSyntax .missingParameter) :
    Stuck c i (other ++ b) cls n t := by
  have len : ∀ k, k ≤ i.value.length + other.length → k ≤ i.value.length + (other ++ b).length := by
    intro k hk
    rw [List.length_append]
    omega
  cases h with
  | ambiguous alts h ha => exact .ambiguous alts h ha
  | unknown h hn hu => exact .unknown h hn hu
  | missing => exact absurd rfl hc
  | extra d h hd hm hv hx => exact .extra d h hd (len _ hm) hv hx
  | malformed d taken rest v _ n t b' h hd hm hx e hlen htake hf hb =>
    exact .malformed d taken (rest ++ b) v _ n t _ h hd (len _ hm) hx (by rw [e]; simp) hlen htake hf hb
  | option => exact absurd rfl hc
  | options d taken rest _ alts h hd hm hx e hlen htake hs hv =>
    exact .options d taken (rest ++ b) _ alts h hd (len _ hm) hx (by rw [e]; simp) hlen htake hs hv

theorem breaks_longer {a b : List Str} {cls : ErrClass} {n t : Str} (h : Breaks c a cls n t) (hc : cls ≠ .cmdlineSyntax .missingParameter) : Breaks c (a ++ b) cls n t := by
  induction h with
  | malformed h => exact .malformed h
  | stuck h hs =>
    refine .stuck h ?_
    clear h
    induction hs with
    | one h => exact .one (stuck_longer h hc)
    | head hi h => exact .head hi h
    | tail h _ ih => exact .tail h (ih hc)
  | plain h hd _ ih => exact .plain h hd (ih hc)
  | option h hcs _ ih =>
    have := Breaks.option h hcs (ih hc)
    rwa [List.cons_append, ← List.append_assoc, ← List.cons_append, ← List.cons_append] at this

end Prefixes

open Prefixes

/-- The beginning of an accepted command line is accepted, with the first of the options, the last of which may have fewer values; or only values
at its end are missing, and the next tokens are these values. -/
theorem C160_prefix (c : Cmdline) (hs : c.styleParser = none) (a b : List Str) (hlen : textLength (a ++ b) < 2147483648) (r : List Opt)
    (h : c.run (a ++ b) = .ok r) :
    (∃ r', c.run a = .ok r' ∧ Begins r' r) ∨
    ((∃ f, c.run a = .error f ∧ MissingValue c f) ∧ ∃ b1 b2 r', b = b1 ++ b2 ∧ b1 ≠ [] ∧ c.run (a ++ b1) = .ok r' ∧ Begins r' r) := by
  obtain ⟨os, os', h1, h2, h3⟩ := (C61_grammar_all c hs _ hlen r).1 h
  have hla : textLength a < 2147483648 := by rw [textLength_append] at hlen; omega
  rcases reads_prefix h1 a b rfl with ⟨xs, ys, rfl, hr⟩ | ⟨⟨n, t, hb⟩, b1, b2, xs, ys, rfl, hb1, rfl, hr⟩
  · exact .inl (run_prefix hs hla hr h2 h3)
  · refine .inr ⟨⟨_, (C63_refused_all c hs a hla _).2 (.reading hb), n, t, rfl⟩, ?_⟩
    obtain ⟨r', h4, h5⟩ := run_prefix hs (by rw [← List.append_assoc, textLength_append] at hlen; omega) hr h2 h3
    exact ⟨b1, b2, r', rfl, hb1, h4, h5⟩

/-- A command line that is refused, but not because a value is missing, is refused however it goes on. -/
theorem C160_refused (c : Cmdline) (hs : c.styleParser = none) (a : List Str) (f : Fail) (h : c.run a = .error f) (hf : ¬ MissingValue c f) (b : List Str)
    (hlen : textLength (a ++ b) < 2147483648) : ∃ f', c.run (a ++ b) = .error f' := by
  cases hr : c.run (a ++ b) with
  | error f' => exact ⟨f', rfl⟩
  | ok r =>
    rcases C160_prefix c hs a b hlen r hr with ⟨r', h1, -⟩ | ⟨⟨f', h1, h2⟩, -⟩
    · rw [h] at h1
      cases h1
    · rw [h] at h1
      cases h1
      exact absurd h2 hf

/-- With the same exception, if it is about a token and no name is ambiguous. -/
theorem C160_same_exception (c : Cmdline) (hs : c.styleParser = none) (a : List Str) (f : Fail) (h : c.run a = .error f) (hf : AboutToken c f) (b : List Str)
    (hlen : textLength (a ++ b) < 2147483648) : c.run (a ++ b) = .error f := by
  obtain ⟨cls, n, t, hc, hm, ha⟩ := hf
  have hla : textLength a < 2147483648 := by rw [textLength_append] at hlen; omega
  rw [C63_refused_all c hs a hla f] at h
  rw [C63_refused_all c hs _ hlen]
  cases h with
  | reading hb =>
    refine .reading (breaks_longer hb ?_)
    rintro rfl
    unfold complaint at hc
    injection hc with hc
    injection hc with hc
    exact hm hc.symm
  | gathering hr hg =>
    exfalso
    clear hr
    induction hg with
    | here _ _ _ _ _ =>
      unfold complaint at hc
      injection hc with hc
      injection hc with hc
      exact ha _ hc.symm
    | undefined => cases hc
    | assertion => cases hc
    | positional _ _ ih => exact ih hc
    | keep _ _ _ ih => exact ih hc
    | take _ _ _ _ _ _ _ ih => exact ih hc
  | labelling => cases hc

/-- `--in a b` begins with `--in a`, which has one value; `--in` lacks one; after the unknown option `--no` nothing helps. -/
example : let c : Cmdline := { desc := [Test.od "in" (Test.sem { Test.vvec with multitoken := true })] }
    (∃ r r', c.run [Test.L "--in", Test.L "a", Test.L "b"] = .ok r ∧ c.run [Test.L "--in", Test.L "a"] = .ok r' ∧ Begins r' r ∧ ¬ r' <+: r) ∧
    (∃ f, c.run [Test.L "--in"] = .error f ∧ MissingValue c f) ∧
    ∀ b, textLength ([Test.L "--no"] ++ b) < 2147483648 → c.run ([Test.L "--no"] ++ b) = .error (complaint c .unknownOption [] (Test.L "--no")) := by
  intro c
  have h1 : (c.run [Test.L "--in", Test.L "a", Test.L "b"]).toOption =
    some [{ stringKey := Test.L "in", value := [Test.L "a", Test.L "b"], originalTokens := [Test.L "--in", Test.L "a", Test.L "b"] }] := by decide +kernel
  have h2 : (c.run [Test.L "--in", Test.L "a"]).toOption =
    some [{ stringKey := Test.L "in", value := [Test.L "a"], originalTokens := [Test.L "--in", Test.L "a"] }] := by decide +kernel
  have h3 : (c.run [Test.L "--in"]).toOption = none := by decide +kernel
  have hok : ∀ args r, (c.run args).toOption = some r → c.run args = .ok r := by
    intro args r h
    cases hr : c.run args with
    | error f => rw [hr] at h; cases h
    | ok r' => rw [hr] at h; cases h; rfl
  refine ⟨⟨_, _, hok _ _ h1, hok _ _ h2, .fewer _ [Test.L "b"] [Test.L "b"], by decide +kernel⟩, ?_, fun b hb => ?_⟩
  · rcases C160_prefix c rfl [Test.L "--in"] [Test.L "a"] (by decide) _ (hok _ _ h2) with ⟨r', h, -⟩ | ⟨h, -⟩
    · rw [h] at h3
      cases h3
    · exact h
  · refine C160_same_exception c rfl [Test.L "--no"] _ ?_ ⟨.unknownOption, [], Test.L "--no", rfl, nofun, nofun⟩ b hb
    have h4 : (match c.run [Test.L "--no"] with | .ok _ => none | .error f => some f) = some (complaint c .unknownOption [] (Test.L "--no")) := by decide +kernel
    cases hr : c.run [Test.L "--no"] with
    | ok r => rw [hr] at h4; cases h4
    | error f => rw [hr] at h4; cases h4; rfl

end PO
