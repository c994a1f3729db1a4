import Verif.Props.Several
import Verif.Props.Compose
import Verif.Tests.Util
/-
C104: a source in one piece or in two.
-/
namespace PO
open Spec

namespace Spec

/-- Under every name, `os` has the values of `as` and then those of `bs`. -/
def ValuesOfBoth (os as bs : List Opt) : Prop :=
  ∀ name, (occurrences os name).map (·.value) = (occurrences as name).map (·.value) ++ (occurrences bs name).map (·.value)

end Spec

namespace SourceParts

theorem both_append (as bs : List Opt) : ValuesOfBoth (as ++ bs) as bs := fun name => by rw [occurrences_append, List.map_append]

/-- Numbering the positional arguments anew changes no value. -/
theorem both_renumbered (as bs : List Opt) (k : Nat) :
    ValuesOfBoth (as ++ bs.map fun o => if o.positionKey = -1 then o else { o with positionKey := o.positionKey + k }) as bs := by
  intro name
  rw [occurrences_append, List.map_append]
  congr 1
  unfold occurrences
  induction bs with
  | nil => rfl
  | cons o bs ih =>
    rw [List.map_cons, List.filter_cons, List.filter_cons]
    by_cases hk : o.positionKey = -1
    · rw [if_pos hk]; split
      · rw [List.map_cons, List.map_cons, ih]
      · exact ih
    · rw [if_neg hk]; dsimp only; split
      · rw [List.map_cons, List.map_cons, ih]
      · exact ih

/-- On one name a source has the effect of its two parts. -/
theorem settled_parts {pa pb p : Parsed} (hb : pb.desc = pa.desc) (hd : p.desc = pa.desc) (hv : ValuesOfBoth p.options pa.options pb.options)
    (hc : ∀ name d, Mentions pa.options name → Mentions pb.options name → candidates pa.desc name = [d] → d.semantic.isComposing = true) {u : Bool}
    {after : List (Parsed × Bool)} {name : Str} {r r' : Option (ValueSemantic × Any)} :
    Settled name ((p, u) :: after) r r' ↔ Settled name ((pa, u) :: (pb, u) :: after) r r' := by
  have eo := hv name
  have mm : ∀ os, Mentions os name ↔ (occurrences os name).map (·.value) ≠ [] := fun os => by rw [mentions_iff, Ne, Ne, List.map_eq_nil_iff]
  by_cases m1 : Mentions pa.options name
  · have m0 : Mentions p.options name := by
      rw [mm] at m1 ⊢; rw [eo]; exact fun hx => m1 (List.append_eq_nil_iff.1 hx).1
    by_cases m2 : Mentions pb.options name
    · constructor
      · intro hs
        cases hs with
        | silent hm => exact absurd m0 hm
        | adds hm hcd hy hcc t =>
          dsimp only at hcd hy
          rw [hd] at hcd
          rw [eo, parseAll_append] at hy
          split at hy
          · cases hy
          · rename_i v hv
            exact .adds m1 hcd hv hcc (.adds m2 (by rw [hb]; exact hcd) hy hcc t)
        | settles hm hcd hy hcc =>
          dsimp only at hcd
          rw [hd] at hcd
          rw [hc name _ m1 m2 hcd] at hcc; cases hcc
      · intro hs
        cases hs with
        | silent hm => exact absurd m1 hm
        | settles hm hcd hy hcc => rw [hc name _ m1 m2 hcd] at hcc; cases hcc
        | adds hm hcd hy hcc t =>
          cases t with
          | silent hm => exact absurd m2 hm
          | settles hm hcd' hy hcc =>
            dsimp only at hcd'
            rw [hb] at hcd'
            rw [hc name _ m1 m2 hcd'] at hcc; cases hcc
          | adds hm' hcd' hy' hcc' t =>
            dsimp only at hcd hcd' hy hy'
            rw [hb, hcd] at hcd'; cases hcd'
            refine .adds m0 (by rw [hd]; exact hcd) ?_ hcc t
            dsimp only
            rw [eo, parseAll_append, hy]
            exact hy'
    · have ho' : (occurrences p.options name).map (·.value) = (occurrences pa.options name).map (·.value) := by
        rw [eo, Classical.not_not.1 fun hx => m2 ((mm _).2 hx), List.append_nil]
      constructor
      · intro hs
        cases hs with
        | silent hm => exact absurd m0 hm
        | adds hm hcd hy hcc t =>
          dsimp only at hy hcd; rw [ho'] at hy; rw [hd] at hcd
          exact .adds m1 hcd hy hcc (.silent m2 t)
        | settles hm hcd hy hcc => dsimp only at hy hcd; rw [ho'] at hy; rw [hd] at hcd; exact .settles m1 hcd hy hcc
      · intro hs
        cases hs with
        | silent hm => exact absurd m1 hm
        | settles hm hcd hy hcc => dsimp only at hy hcd; rw [← ho'] at hy; rw [← hd] at hcd; exact .settles m0 hcd hy hcc
        | adds hm hcd hy hcc t =>
          dsimp only at hy hcd; rw [← ho'] at hy; rw [← hd] at hcd
          cases t with
          | silent _ t => exact .adds m0 hcd hy hcc t
          | adds hm => exact absurd hm m2
          | settles hm => exact absurd hm m2
  · have ho' : (occurrences p.options name).map (·.value) = (occurrences pb.options name).map (·.value) := by
      rw [eo, Classical.not_not.1 fun hx => m1 ((mm _).2 hx), List.nil_append]
    have m0 : Mentions p.options name ↔ Mentions pb.options name := by rw [mm, mm, ho']
    have hpb : p.desc = pb.desc := hd.trans hb.symm
    constructor
    · intro hs
      cases hs with
      | silent hm t => exact .silent m1 (.silent (fun hx => hm (m0.2 hx)) t)
      | adds hm hcd hy hcc t =>
        dsimp only at hy hcd; rw [ho'] at hy; rw [hpb] at hcd
        exact .silent m1 (.adds (m0.1 hm) hcd hy hcc t)
      | settles hm hcd hy hcc => dsimp only at hy hcd; rw [ho'] at hy; rw [hpb] at hcd; exact .silent m1 (.settles (m0.1 hm) hcd hy hcc)
    · intro hs
      cases hs with
      | adds hm => exact absurd hm m1
      | settles hm => exact absurd hm m1
      | silent _ t =>
        cases t with
        | silent hm t => exact .silent (fun hx => hm (m0.1 hx)) t
        | adds hm hcd hy hcc t =>
          dsimp only at hy hcd; rw [← ho'] at hy; rw [← hpb] at hcd
          exact .adds (m0.2 hm) hcd hy hcc t
        | settles hm hcd hy hcc => dsimp only at hy hcd; rw [← ho'] at hy; rw [← hpb] at hcd; exact .settles (m0.2 hm) hcd hy hcc

theorem settled_context {name : Str} {X Y : List (Parsed × Bool)} (h : ∀ r r', Settled name X r r' ↔ Settled name Y r r') (before : List (Parsed × Bool))
    (r r' : Option (ValueSemantic × Any)) : Settled name (before ++ X) r r' ↔ Settled name (before ++ Y) r r' := by
  induction before generalizing r with
  | nil => exact h r r'
  | cons q before ih =>
    constructor
    · intro hs
      cases hs with
      | silent hm t => exact .silent hm ((ih _).1 t)
      | adds hm hd hy hc t => exact .adds hm hd hy hc ((ih _).1 t)
      | settles hm hd hy hc => exact .settles hm hd hy hc
    · intro hs
      cases hs with
      | silent hm t => exact .silent hm ((ih _).2 t)
      | adds hm hd hy hc t => exact .adds hm hd hy hc ((ih _).2 t)
      | settles hm hd hy hc => exact .settles hm hd hy hc

theorem default_parts {pa pb p : Parsed} (hb : pb.desc = pa.desc) (hd : p.desc = pa.desc) (u : Bool) (before after : List (Parsed × Bool)) (n : Str) :
    defaultFrom (before ++ (p, u) :: after) n = defaultFrom (before ++ (pa, u) :: (pb, u) :: after) n := by
  induction before with
  | nil =>
    simp only [List.nil_append]
    rw [defaultFrom_cons, defaultFrom_cons, defaultFrom_cons, hb, hd]
    cases firstDefault pa.desc n <;> rfl
  | cons q before ih =>
    obtain ⟨q, v⟩ := q
    simp only [List.cons_append]
    rw [defaultFrom_cons, defaultFrom_cons, ih]

end SourceParts
open SourceParts

/-- **C104, one source or two.** If a source has the values of two others, and every name in both belongs to a composing option, it makes no difference which is
stored, whatever sources come before and after. -/
theorem C104_one_or_two (pa pb p : Parsed) (hb : pb.desc = pa.desc) (hd : p.desc = pa.desc) (hv : ValuesOfBoth p.options pa.options pb.options)
    (hc : ∀ name d, Mentions pa.options name → Mentions pb.options name → candidates pa.desc name = [d] → d.semantic.isComposing = true) (u : Bool)
    (before after : List (Parsed × Bool)) :
    ((∃ m, Stores {} (before ++ (p, u) :: after) m) ↔ ∃ m, Stores {} (before ++ (pa, u) :: (pb, u) :: after) m) ∧
    ∀ m m', Stores {} (before ++ (p, u) :: after) m → Stores {} (before ++ (pa, u) :: (pb, u) :: after) m' → ∀ n, m.map.get? n = m'.map.get? n := by
  have key : ∀ n r, Settled n (before ++ (p, u) :: after) none r ↔ Settled n (before ++ (pa, u) :: (pb, u) :: after) none r :=
    fun n r => settled_context (fun _ _ => settled_parts hb hd hv hc) before none r
  refine ⟨?_, fun m m' hm hm' n => ?_⟩
  · rw [C104_succeeds, C104_succeeds]
    exact ⟨fun h n => (h n).imp fun r => (key n r).1, fun h n => (h n).imp fun r => (key n r).2⟩
  · obtain ⟨r, hr, e⟩ := C104_value _ _ hm n
    obtain ⟨r', hr', e'⟩ := C104_value _ _ hm' n
    rw [e, e', ((key n r).1 hr).det hr', default_parts hb hd]

/-- **C76, stored.** Two command lines that compose may be stored one after the other or as one, whatever else is stored before and after, if every option given in
both is composing. -/
theorem C76_stored (c : Cmdline) (hs : c.styleParser = none) (hp : c.positional = none)
    (hne : ∀ d ∈ c.desc, ∀ name, name ≠ [] → reportedKey d name ≠ []) (a b : List Str) (hlen : (a ++ b).length < 2147483648)
    (hd : ['-', '-'] ∉ a) (pa pb : Parsed) (ha : c.parse a = .ok pa) (hb : c.parse b = .ok pb)
    (hroom : ∀ o p, pa.options.getLast? = some o → pb.options.head? = some p → o.positionKey = -1 → p.positionKey ≠ -1 →
      ∀ d, Denotes c o.stringKey d → ¬ (d.semantic.minTokens < d.semantic.maxTokens ∧ o.value.length < d.semantic.maxTokens))
    (hc : ∀ name d, Mentions pa.options name → Mentions pb.options name → candidates c.desc name = [d] → d.semantic.isComposing = true)
    (u : Bool) (before after : List (Parsed × Bool)) :
    ∃ p, c.parse (a ++ b) = .ok p ∧
      ((∃ m, Stores {} (before ++ (p, u) :: after) m) ↔ ∃ m, Stores {} (before ++ (pa, u) :: (pb, u) :: after) m) ∧
      ∀ m m', Stores {} (before ++ (p, u) :: after) m → Stores {} (before ++ (pa, u) :: (pb, u) :: after) m' → ∀ n, m.map.get? n = m'.map.get? n := by
  unfold Cmdline.parse at ha hb ⊢
  cases e1 : c.run a with
  | error f => rw [e1] at ha; cases ha
  | ok ra =>
    cases e2 : c.run b with
    | error f => rw [e2] at hb; cases hb
    | ok rb =>
      rw [e1] at ha; cases ha
      rw [e2] at hb; cases hb
      rw [C76_compose c hs hp hne a b hlen hd ra rb e1 e2 hroom]
      refine ⟨_, rfl, ?_⟩
      apply C104_one_or_two
      · rfl
      · rfl
      · exact both_renumbered ra rb _
      · exact hc

/-! A command line with a composing option in both parts, before a configuration file. -/

def Ex.partsDesc : List OptionDesc :=
  [Test.od "name" (Test.sem Test.vstr), Test.od "inc" (Test.sem { Test.vvec with composing := true }), Test.od "mode" (Test.sem Test.vvec)]
def Ex.partsLine : Cmdline := { desc := Ex.partsDesc }
def Ex.partsFile : Parsed := Ex.got (parseConfigFile (Test.L "name = y\ninc = c\n") Ex.partsDesc)
def Ex.partsGet (srcs : List (Parsed × Bool)) (n : String) : Option Any := ((storesAny {} srcs).map.get? (Test.L n)).map (·.v)

example : let p := Ex.got (Ex.partsLine.parse [Test.L "--inc", Test.L "a", Test.L "--name=x", Test.L "--inc=b"])
    let pa := Ex.got (Ex.partsLine.parse [Test.L "--inc", Test.L "a"])
    let pb := Ex.got (Ex.partsLine.parse [Test.L "--name=x", Test.L "--inc=b"])
    Ex.partsGet [(p, false), (Ex.partsFile, false)] "inc" = some (some (.vector .str [.str (Test.L "a"), .str (Test.L "b"), .str (Test.L "c")])) ∧
    Ex.partsGet [(pa, false), (pb, false), (Ex.partsFile, false)] "inc" = some (some (.vector .str [.str (Test.L "a"), .str (Test.L "b"), .str (Test.L "c")])) ∧
    Ex.partsGet [(p, false), (Ex.partsFile, false)] "name" = some (some (.scalar (.str (Test.L "x")))) ∧
    Ex.partsGet [(pa, false), (pb, false), (Ex.partsFile, false)] "name" = some (some (.scalar (.str (Test.L "x")))) := by decide

/-- The condition on composing options is needed: of an option that is not composing, only the first source counts. -/
theorem C76_not_composing : ∃ p pa pb, Ex.partsLine.parse [Test.L "--mode=a", Test.L "--mode=b"] = .ok p ∧ Ex.partsLine.parse [Test.L "--mode=a"] = .ok pa ∧
    Ex.partsLine.parse [Test.L "--mode=b"] = .ok pb ∧
    Ex.partsGet [(p, false)] "mode" = some (some (.vector .str [.str (Test.L "a"), .str (Test.L "b")])) ∧
    Ex.partsGet [(pa, false), (pb, false)] "mode" = some (some (.vector .str [.str (Test.L "a")])) :=
  ⟨_, _, _, rfl, rfl, rfl, by decide, by decide⟩

end PO
