import Verif.Props.MessageLoops
import Verif.Props.Placeholders
/-
C47: `what()` can go on for ever although no text contains its own placeholder: the message grows at the place of the replacement.
-/
namespace PO
open Spec

/-- The value that makes it grow. -/
def growingValue : Str := str% "value%%value"

theorem hole_skip {k b r : Str} (hb : '%' ∉ b) : placeholder k <:+: b ++ r ↔ placeholder k <:+: r := by
  constructor
  · intro h
    induction b with
    | nil => exact h
    | cons c b ih =>
      simp only [List.mem_cons, not_or] at hb
      rw [List.cons_append, List.infix_cons_iff] at h
      rcases h with h | h
      · simp only [placeholder, List.cons_append, List.cons_prefix_cons] at h
        exact absurd h.1 hb.1
      · exact ih hb.2 h
  · rintro ⟨s, t, rfl⟩
    exact ⟨b ++ s, t, by simp⟩

theorem findSub_second {b r : Str} (hb : '%' ∉ b) : findSub (b ++ str% "%%value%" ++ r) (placeholder kValue) = some (b.length + 1) := by
  induction b with
  | nil =>
    rw [List.nil_append, show str% "%%value%" ++ r = '%' :: (placeholder kValue ++ r) from rfl, findSub, if_neg, (findSub_eq_zero _ _).2 (by simp)]
    · rfl
    · intro h
      have h := List.isPrefixOf_iff_prefix.1 h
      simp [placeholder, kValue] at h
  | cons c b ih =>
    simp only [List.mem_cons, not_or] at hb
    rw [List.cons_append, List.cons_append, findSub, if_neg, ih hb.2]
    · rfl
    · intro h
      have h := List.isPrefixOf_iff_prefix.1 h
      simp only [placeholder, List.cons_append, List.cons_prefix_cons] at h
      exact hb.1 h.1

/-- Two replacements lead from `b%%value%r` to `bvalue%%value%valuer`. -/
theorem replaceToken_grows (f : Nat) (b r : Str) (hb : '%' ∉ b) :
    replaceToken f (b ++ str% "%%value%" ++ r) (placeholder kValue) growingValue = none := by
  induction f using Nat.strongRecOn generalizing b r with
  | ind f ih =>
    rw [replaceToken.eq_def]
    dsimp only
    rw [findSub_second hb]
    cases f with
    | zero => rfl
    | succ f =>
      dsimp only
      have e1 : (b ++ str% "%%value%" ++ r).take (b.length + 1) ++ growingValue ++ (b ++ str% "%%value%" ++ r).drop (b.length + 1 + (placeholder kValue).length) =
          b ++ placeholder kValue ++ (str% "%value" ++ r) := by
        have : b ++ str% "%%value%" ++ r = (b ++ ['%']) ++ (placeholder kValue ++ r) := by simp [placeholder, kValue]
        rw [this, show b.length + 1 = (b ++ ['%']).length by simp, List.take_left, ← List.drop_drop, List.drop_left, List.drop_left]
        simp [placeholder, kValue, growingValue]
      rw [e1, replaceToken.eq_def]
      dsimp only
      rw [Exception.findSub_hole hb]
      cases f with
      | zero => rfl
      | succ f =>
        dsimp only
        have e2 : (b ++ placeholder kValue ++ (str% "%value" ++ r)).take b.length ++ growingValue ++
            (b ++ placeholder kValue ++ (str% "%value" ++ r)).drop (b.length + (placeholder kValue).length) =
            (b ++ str% "value") ++ str% "%%value%" ++ (str% "value" ++ r) := by
          rw [List.append_assoc b, List.take_left, ← List.drop_drop, List.drop_left, List.drop_left]
          simp [growingValue]
        rw [e2]
        exact ih f (by omega) _ _ (by simpa using hb)

/-- **C47, growing messages.** An invalid value `value%%value` of an option that is displayed with a name that has `%%value%` in it: `what()` never
returns, although no text contains its own placeholder. -/
theorem C47_grows (option token x y : Str) (style : Nat) (hk : KnownStyle style) (hx : '%' ∉ x) (hy : '%' ∉ y) (e : OptErr)
    (he : errInvalidValue growingValue = .opt e) (hn : (e.addContext option token style).canonicalName = some (x ++ str% "%%value%" ++ y)) (f : Nat) :
    (e.addContext option token style).what f = none := by
  have he : e = (OptErr.mk' (.validation .invalidOptionValue)).setSubst (str% "value") growingValue := by
    unfold errInvalidValue at he; injection he with he; exact he.symm
  subst he
  have hs : (((OptErr.mk' (.validation .invalidOptionValue)).setSubst (str% "value") growingValue).addContext option token style).subst =
    shape none option token (some growingValue) := rfl
  have hc : (((OptErr.mk' (.validation .invalidOptionValue)).setSubst (str% "value") growingValue).addContext option token style).cls = .validation .invalidOptionValue := rfl
  have hst : (((OptErr.mk' (.validation .invalidOptionValue)).setSubst (str% "value") growingValue).addContext option token style).style = style := rfl
  generalize (((OptErr.mk' (.validation .invalidOptionValue)).setSubst (str% "value") growingValue).addContext option token style) = e at hs hc hst hn
  obtain ⟨pre, hp, _⟩ := prefix_of_known (e := e) (by rw [hst]; exact hk)
  have ha : ∀ alts, e.cls ≠ .ambiguousOption alts := by rw [hc]; nofun
  refine what_none e ha (fun f hf => ?_) f
  rw [what_subst e none option token (some growingValue) _ pre ha hs hn hp f hf, hc]
  have hb0 : decide ((some growingValue).getD [] = []) = false := by decide
  have hb1 : decide (x ++ str% "%%value%" ++ y = []) = false := by simp
  rw [hb0, hb1]
  have e0 : catBlks ((ErrClass.validation .invalidOptionValue).form.last false false) ((ErrClass.validation .invalidOptionValue).form.blocks false false) =
    str% "the argument (" ++ '\'' :: (placeholder kValue ++ '\'' :: (str% ") for option " ++ '\'' :: (placeholder kCanon ++ str% "' is invalid"))) := rfl
  rw [e0]
  show applySubsts f [(kCanon, x ++ str% "%%value%" ++ y), (kOption, option), (kToken, token), (kPrefix, pre), (kValue, growingValue)] _ = none
  have hq : ∀ k ∈ [kCanon, kOption, kToken, kPrefix, kValue], '\'' ∉ placeholder k := by decide
  -- the name
  have hname : ∀ k ∈ [kCanon, kOption, kToken, kPrefix], ¬ placeholder k <:+: x ++ str% "%%value%" ++ y ++ str% "' is invalid" := by
    intro k hk h
    rw [List.append_assoc, List.append_assoc, hole_skip hx] at h
    have hy' : '%' ∉ y ++ str% "' is invalid" := by simpa using hy
    generalize y ++ str% "' is invalid" = z at h hy'
    have hz := placeholder_noPercent (k := k) hy'
    have h2 : ¬ placeholder k <+: '%' :: z := by
      intro h
      simp only [placeholder, List.cons_append, List.cons_prefix_cons, true_and] at h
      exact hy' (h.subset (by simp))
    simp only [List.mem_cons, List.not_mem_nil, or_false] at hk
    rcases hk with rfl | rfl | rfl | rfl <;>
      · simp only [List.cons_append, List.nil_append, List.infix_cons_iff, hz, h2, or_false] at h
        simp [placeholder, kCanon, kOption, kToken, kPrefix] at h
  have hstep : ∀ k ∈ [kCanon, kOption, kToken, kPrefix], ∀ v m, replaceToken f (str% "the argument (" ++ '\'' :: (placeholder kValue ++ '\'' ::
      (str% ") for option " ++ '\'' :: m))) (placeholder k) v = (replaceToken f m (placeholder k) v).map fun m =>
      str% "the argument (" ++ '\'' :: (placeholder kValue ++ '\'' :: (str% ") for option " ++ '\'' :: m)) := by
    intro k hk v m
    have hq := hq k (by simp only [List.mem_cons, List.not_mem_nil, or_false] at hk ⊢; rcases hk with h | h | h | h <;> simp [h])
    have h1 : ¬ placeholder k <:+: placeholder kValue := by
      simp only [List.mem_cons, List.not_mem_nil, or_false] at hk
      rcases hk with rfl | rfl | rfl | rfl <;> (refine not_infix_dec ?_; decide)
    rw [replaceToken_skip (placeholder_ne k) hq _ _ _ _ (placeholder_noPercent (by simp)), replaceToken_skip (placeholder_ne k) hq _ _ _ _ h1,
      replaceToken_skip (placeholder_ne k) hq _ _ _ _ (placeholder_noPercent (by simp))]
    cases replaceToken f m (placeholder k) v <;> rfl
  have hfirst : replaceToken f (placeholder kCanon ++ str% "' is invalid") (placeholder kCanon) (x ++ str% "%%value%" ++ y) =
      some (x ++ str% "%%value%" ++ y ++ str% "' is invalid") := by
    obtain ⟨g, rfl⟩ : ∃ g, f = g + 1 := ⟨f - 1, by omega⟩
    rw [replaceToken.eq_def]
    dsimp only
    rw [(findSub_eq_zero _ _).2 (List.prefix_append _ _)]
    dsimp only
    rw [List.take_zero, List.nil_append, Nat.zero_add, List.drop_left]
    exact replaceToken_none (hname kCanon (by simp))
  have hcons : ∀ k v ss m, applySubsts f ((k, v) :: ss) m = match replaceToken f m (placeholder k) v with
      | none => none
      | some m => applySubsts f ss m := by
    intro k v ss m
    rw [applySubsts]
    rfl
  rw [hcons, hstep kCanon (by simp), hfirst]
  simp only [Option.map_some]
  rw [hcons, hstep kOption (by simp), replaceToken_none (hname kOption (by simp))]
  simp only [Option.map_some]
  rw [hcons, hstep kToken (by simp), replaceToken_none (hname kToken (by simp))]
  simp only [Option.map_some]
  rw [hcons, hstep kPrefix (by simp), replaceToken_none (hname kPrefix (by simp))]
  simp only [Option.map_some]
  -- the value
  rw [hcons]
  have hlast : replaceToken f (str% "the argument (" ++ '\'' :: (placeholder kValue ++ '\'' :: (str% ") for option " ++ '\'' ::
      (x ++ str% "%%value%" ++ y ++ str% "' is invalid")))) (placeholder kValue) growingValue = none := by
    have hqv := hq kValue (by simp)
    rw [replaceToken_skip (placeholder_ne _) hqv _ _ _ _ (placeholder_noPercent (by simp)), replaceToken.eq_def]
    dsimp only
    rw [(findSub_eq_zero _ _).2 (List.prefix_append _ _)]
    cases f with
    | zero => rfl
    | succ g =>
      dsimp only
      rw [List.take_zero, List.nil_append, Nat.zero_add, List.drop_left, replaceToken_skip (placeholder_ne _) hqv _ _ _ _ (not_infix_dec (by decide)),
        replaceToken_skip (placeholder_ne _) hqv _ _ _ _ (placeholder_noPercent (by simp)), List.append_assoc, replaceToken_grows _ _ _ hx]
      rfl
  rw [hlast]

/-- The environment of the example: numbers without sign. -/
def growingEnv : Env :=
  { Test.env with lex := fun _ s => if s ≠ [] ∧ s.all (·.isDigit) = true then some (s.foldl (fun n c => 10 * n + (c.toNat - 48)) 0 : Nat) else none }

/-- The parser options of the example: any name that begins with `D`, with a number. -/
def growingExample : Cmdline := { desc := [Test.od "D*" (Test.vint.toSemantic growingEnv)] }

/-- What is thrown for `--D%%value%=value%%value`. -/
def growingError : OptErr :=
  ((OptErr.mk' (.validation .invalidOptionValue)).setSubst (str% "value") growingValue).addContext (Test.L "D%%value%") (Test.L "--D%%value%=value%%value") 1

/-- The parser and `store` throw it. -/
theorem C47_grows_reachable : growingExample.run [Test.L "--D%%value%=value%%value"] =
      .ok [{ stringKey := Test.L "D%%value%", value := [growingValue], originalTokens := [Test.L "--D%%value%=value%%value"] }] ∧
    (store { desc := growingExample.desc, pre := 1, options := [{ stringKey := Test.L "D%%value%", value := [growingValue], originalTokens := [Test.L "--D%%value%=value%%value"] }] } {} false).2 =
      some (.opt growingError) := by
  exact ⟨rfl, rfl⟩

/-- It does not return, although none of the texts put in contains the placeholder it is put in for. -/
theorem C47_negation_growing : (∀ k v, (k, v) ∈ growingError.subst → ¬ placeholder k <:+: v) ∧
    (∀ name, growingError.canonicalName = some name → ¬ placeholder kCanon <:+: name) ∧ ¬ Returns growingError := by
  have hn : growingError.canonicalName = some (Test.L "--D" ++ str% "%%value%" ++ []) := rfl
  refine ⟨?_, ?_, ?_⟩
  · intro k v h
    have : growingError.subst = shape none (Test.L "D%%value%") (Test.L "--D%%value%=value%%value") (some growingValue) := rfl
    rw [this] at h
    simp only [shape, Option.toList_none, Option.toList_some, List.map_nil, List.map_cons, List.nil_append, List.cons_append, List.mem_cons,
      List.not_mem_nil, or_false, Prod.mk.injEq] at h
    rcases h with ⟨rfl, rfl⟩ | ⟨rfl, rfl⟩ | ⟨rfl, rfl⟩ <;> (refine not_infix_dec ?_; decide)
  · intro name h
    rw [hn] at h
    cases h
    exact not_infix_dec (by decide)
  · rintro ⟨f, m, h⟩
    rw [growingError, C47_grows (Test.L "D%%value%") _ (Test.L "--D") [] 1 (.inr (.inl rfl)) (by decide) (by decide) _ rfl hn f] at h
    cases h

end PO
