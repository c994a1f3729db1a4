import Verif.Lemmas.ExtraCalls
import Verif.Lemmas.CmdlineParts
import Verif.Lemmas.CmdlineFinal
import Verif.Tests.Util
/-
C129: the calls of the extra parser.
-/
namespace PO
open Spec
namespace ExtraCalls

/-! ### The first pass -/

theorem step_left (c : Cmdline) (g : Talk) (h : List Str) (tok : Str) (rest : List Str) (os : List Opt) (left h' : List Str)
    (e : tryParsers c (parsers c g) (parsers c g) h (tok :: rest) = (.ok (os, left), h')) : left.length ≤ rest.length := by
  rw [step_eq] at e
  cases hf : front c g h tok with
  | error f => rw [hf] at e; cases e
  | ok l =>
    rw [hf] at e
    cases l with
    | nil =>
      rw [after] at e
      split at e
      · cases e; simp
      · cases e; simp
    | cons o l =>
      have hh := finishAll_heard c g (h ++ [tok]) (o :: l) rest
      rw [after] at e
      rw [e] at hh
      exact hh.length

theorem loop_fuel (c : Cmdline) (g : Talk) (n m : Nat) (h args : List Str) (hn : args.length ≤ n) (hm : args.length ≤ m) :
    loop c g n h args = loop c g m h args := by
  induction n generalizing m h args with
  | zero =>
    cases args with
    | nil => cases m <;> rfl
    | cons a args => simp at hn
  | succ n ih =>
    cases args with
    | nil => cases m <;> rfl
    | cons a args =>
      cases m with
      | zero => simp at hm
      | succ m =>
        rw [loop, loop]
        cases hs : tryParsers c (parsers c g) (parsers c g) h (a :: args) with
        | mk r h' =>
          cases r with
          | error f => rfl
          | ok r =>
            obtain ⟨os, left⟩ := r
            have := step_left c g h a args os left h' hs
            simp only [List.length_cons] at hn hm
            dsimp only
            rw [ih m h' left (by omega) (by omega)]

theorem loop_succ (c : Cmdline) (g : Talk) (fuel : Nat) (h : List Str) (tok : Str) (rest : List Str) (os : List Opt) (left h' : List Str)
    (e : tryParsers c (parsers c g) (parsers c g) h (tok :: rest) = (.ok (os, left), h')) :
    loop c g (fuel + 1) h (tok :: rest) = ((loop c g fuel h' left).1.map (os ++ ·), (loop c g fuel h' left).2) := by
  rw [loop, e]
  dsimp only
  cases loop c g fuel h' left with
  | mk r k => cases r <;> rfl

theorem loop_heard (c : Cmdline) (g : Talk) (fuel : Nat) (h args : List Str) :
    ∃ t rest, args = t ++ rest ∧ (loop c g fuel h args).2 = h ++ t ∧
      (∀ a x b e, t = a ++ x :: b → g (h ++ a) x = .error e → b = [] ∧ Passes (loop c g fuel h args).1 e) ∧
      ∀ os, (loop c g fuel h args).1 = .ok os → (rest ≠ [] → t.getLast? = some ['-', '-']) ∧ ∃ os', os = os' ++ rest.map Cmdline.afterDashes := by
  induction fuel generalizing h args with
  | zero =>
    cases args with
    | nil => exact ⟨[], [], rfl, by simp [loop], by simp, fun os ho => ⟨by simp, os, by simp⟩⟩
    | cons a args => exact ⟨[], a :: args, rfl, by simp [loop], by simp, by simp [loop]⟩
  | succ fuel ih =>
    cases args with
    | nil => exact ⟨[], [], rfl, by simp [loop], by simp, fun os ho => ⟨by simp, os, by simp⟩⟩
    | cons tok rest =>
      rcases step_heard c g h tok rest with hs | ⟨rfl, hs⟩
      · cases hr : tryParsers c (parsers c g) (parsers c g) h (tok :: rest) with
        | mk r h' =>
          rw [hr] at hs
          obtain ⟨t, left, e, e2, hp, hl⟩ := hs
          dsimp only at e2
          subst e2
          cases r with
          | error f =>
            rw [loop, hr]
            refine ⟨t, left, e, rfl, ?_, (fun _ h => nomatch h)⟩
            intro a x b f' h1 h2
            obtain ⟨hb, hf | ⟨k, o, q, hf⟩⟩ := hp a x b f' h1 h2
            · cases hf; exact ⟨hb, .inl rfl⟩
            · cases hf; exact ⟨hb, .inr ⟨k, o, q, rfl⟩⟩
          | ok r =>
            obtain ⟨os1, left'⟩ := r
            have := hl _ _ rfl
            subst this
            rw [loop_succ c g fuel h tok rest os1 left' _ hr]
            obtain ⟨t2, rest2, e3, e4, hp2, hl2⟩ := ih (h ++ t) left'
            cases hlp : loop c g fuel (h ++ t) left' with
            | mk r k =>
              rw [hlp] at e4 hp2 hl2
              dsimp only at e4 hp2 hl2 ⊢
              refine ⟨t ++ t2, rest2, by rw [e, e3, List.append_assoc], by rw [e4, List.append_assoc], ?_, ?_⟩
              · intro a x b f h1 h2
                rcases List.append_eq_append_iff.1 h1 with ⟨m, h3, h4⟩ | ⟨m, h3, h4⟩
                · subst h3
                  obtain ⟨hb, hf⟩ := hp2 m x b f h4 (by rwa [List.append_assoc])
                  refine ⟨hb, ?_⟩
                  rcases hf with hf | ⟨k', o, q, hf⟩
                  · subst hf; exact .inl rfl
                  · subst hf; exact .inr ⟨k', o, q, rfl⟩
                · cases m with
                  | nil =>
                    rw [List.append_nil] at h3
                    rw [List.nil_append] at h4
                    subst h3
                    obtain ⟨hb, hf⟩ := hp2 [] x b f h4.symm (by rwa [List.append_nil])
                    refine ⟨hb, ?_⟩
                    rcases hf with hf | ⟨k', o, q, hf⟩
                    · subst hf; exact .inl rfl
                    · subst hf; exact .inr ⟨k', o, q, rfl⟩
                  | cons y m =>
                    rw [List.cons_append] at h4
                    injection h4 with h5 h6
                    subst h5
                    obtain ⟨-, hf | ⟨_, _, _, hf⟩⟩ := hp a x m f h3 h2
                    · cases hf
                    · cases hf
              · intro os ho
                cases r with
                | error f => cases ho
                | ok more =>
                  cases ho
                  obtain ⟨h1, os', rfl⟩ := hl2 more rfl
                  refine ⟨?_, os1 ++ os', by simp⟩
                  intro h0
                  have := h1 h0
                  rw [List.getLast?_append, this]; rfl
      · rw [loop_succ c g fuel h _ rest _ _ _ hs]
        refine ⟨[['-', '-']], rest, rfl, ?_, ?_, ?_⟩
        · cases fuel <;> rfl
        · intro a x b f h1 h2
          cases a with
          | cons _ a => cases a <;> cases h1
          | nil =>
            cases h1
            exfalso
            rw [List.append_nil] at h2
            rw [step_eq, front_error c h2] at hs
            cases hs
        · intro os ho
          refine ⟨fun _ => rfl, [], ?_⟩
          cases fuel <;> (cases ho; simp)

theorem loop_plays (c : Cmdline) (g : Talk) (f : Str → Str × Str) (fuel : Nat) (h args : List Str) (hp : Plays g f h args) :
    (loop c g fuel h args).1 = (withExtra c f).loop fuel args := by
  induction fuel generalizing h args with
  | zero => cases args <;> rfl
  | succ fuel ih =>
    cases args with
    | nil => rfl
    | cons tok rest =>
      rw [loop, Cmdline.loop, ← step_plays c g f h tok rest hp]
      have hh := step_heard c g h tok rest
      cases hr : tryParsers c (parsers c g) (parsers c g) h (tok :: rest) with
      | mk r h' =>
        rw [hr] at hh
        cases r with
        | error e => rfl
        | ok r =>
          obtain ⟨os, left⟩ := r
          dsimp only
          have hp' : Plays g f h' left := by
            rcases hh with ⟨t, rest', e, e2, -, hl⟩ | ⟨-, e⟩
            · have := hl _ _ rfl
              subst this
              dsimp only at e2
              subst e2
              rw [e] at hp
              exact hp.append
            · cases e
              intro t x r e
              cases t <;> cases e
          rw [← ih h' left hp']
          cases loop c g fuel h' left with
          | mk r k => cases r <;> rfl

/-! ### After the first pass -/

/-- The values and the original tokens of an option. -/
def kept (o : Opt) : List Str × List Str := (o.value, o.originalTokens)

theorem assignPositions_kept (n : Int) (os : List Opt) : (Cmdline.assignPositions n os).map kept = os.map kept := by
  induction os generalizing n with
  | nil => rfl
  | cons o os ih =>
    rw [Cmdline.assignPositions]
    split
    · rw [List.map_cons, List.map_cons, ih]; rfl
    · rw [List.map_cons, List.map_cons, ih]

theorem namePositional_kept (p : Positional) (n : Nat) (os res : List Opt) (h : Cmdline.namePositional p n os = .ok res) :
    res.map kept = os.map kept := by
  induction os generalizing n res with
  | nil => cases h; rfl
  | cons o os ih =>
    rw [Cmdline.namePositional] at h
    split at h
    · split at h
      · cases h
      · split at h
        · cases h
        · split at h
          · cases h
          · rename_i hr
            cases h
            rw [List.map_cons, List.map_cons, ih _ _ hr]; rfl
    · split at h
      · cases h
      · rename_i hr
        cases h
        rw [List.map_cons, List.map_cons, ih _ _ hr]

theorem finalize_kept (c : Cmdline) (os res : List Opt) (rest : List Str)
    (h : c.finalize (os ++ rest.map Cmdline.afterDashes) = .ok res) :
    ∃ os' tail, res = os' ++ tail ∧ tail.map kept = rest.map fun t => ([t], [t]) := by
  have hr : c.regroup 0 (os ++ rest.map Cmdline.afterDashes) = (c.regroup 0 os).map (· ++ rest.map Cmdline.afterDashes) := by
    refine c.regroup_append 0 os _ (by simp) ?_
    intro a ha
    obtain ⟨t, _, rfl⟩ := List.mem_map.1 ha
    exact ⟨rfl, rfl⟩
  unfold Cmdline.finalize at h
  rw [hr] at h
  cases h0 : c.regroup 0 os with
  | error f => rw [h0] at h; cases h
  | ok r2 =>
    rw [h0] at h
    dsimp only [Except.map] at h
    have key : res.map kept = (r2 ++ rest.map Cmdline.afterDashes).map kept := by
      rw [← assignPositions_kept 0 (r2 ++ _)]
      have hc : ∀ l : List Opt, (l.map c.setCase).map kept = l.map kept := by
        intro l
        rw [List.map_map]
        apply List.map_congr_left
        intro o _
        simp only [Function.comp_apply, kept, Cmdline.setCase_value, Cmdline.setCase_originalTokens]
      unfold Cmdline.applyPositional at h
      cases hp : c.positional with
      | none =>
        rw [hp] at h
        cases h
        rw [hc]
      | some p =>
        rw [hp] at h
        dsimp only at h
        cases hn : Cmdline.namePositional p 0 (Cmdline.assignPositions 0 (r2 ++ rest.map Cmdline.afterDashes)) with
        | error f => rw [hn] at h; cases h
        | ok r4 =>
          rw [hn] at h
          cases h
          rw [hc, namePositional_kept p 0 _ _ hn]
    rw [List.map_append] at key
    refine ⟨res.take r2.length, res.drop r2.length, (List.take_append_drop _ _).symm, ?_⟩
    rw [List.map_drop, key, List.drop_left' (by simp), List.map_map]
    rfl

theorem regroup_extra (c : Cmdline) (f : Str → Str × Str) (k : Nat) (os : List Opt) : (withExtra c f).regroup k os = c.regroup k os := by
  induction os generalizing k with
  | nil => rw [Cmdline.regroup, Cmdline.regroup]
  | cons o os ih =>
    cases k with
    | succ k => rw [Cmdline.regroup, Cmdline.regroup, ih]
    | zero =>
      rw [Cmdline.regroup, Cmdline.regroup]
      simp only [ih]
      rfl

theorem finalize_extra (c : Cmdline) (f : Str → Str × Str) (os : List Opt) : (withExtra c f).finalize os = c.finalize os := by
  unfold Cmdline.finalize
  rw [regroup_extra]
  rfl

/-! ### The calls -/

/-- **C129.** In every run, with whatever extra parser (with a state, or throwing), it is called once on each token, in their order, up
to some place; after a call that throws there is no other, and its exception comes out of the parser (as it is or naming the option the
tokens were read for). -/
theorem C129_calls (c : Cmdline) (g : Talk) (args : List Str) :
    (run c g args).2 <+: args ∧
    ∀ t x u e, (run c g args).2 = t ++ x :: u → g t x = .error e →
      u = [] ∧ ((run c g args).1 = .error e ∨ ∃ key tok pre, (run c g args).1 = .error (e.addContext key tok pre)) := by
  obtain ⟨t, rest, e, e2, hp, -⟩ := loop_heard c g (args.length + 1) [] args
  unfold run
  cases hl : loop c g (args.length + 1) [] args with
  | mk r h =>
    rw [hl] at e2 hp
    rw [List.nil_append] at e2
    dsimp only at e2
    subst e2
    constructor
    · refine ⟨rest, ?_⟩
      rw [e]
      cases r <;> rfl
    · intro a x b f h1 h2
      have h1' : h = a ++ x :: b := by rw [← h1]; cases r <;> rfl
      obtain ⟨hb, hf⟩ := hp a x b f h1' h2
      refine ⟨hb, ?_⟩
      rcases hf with hf | ⟨k, o, q, hf⟩
      · dsimp only at hf; subst hf; exact .inl rfl
      · dsimp only at hf; subst hf; exact .inr ⟨k, o, q, rfl⟩

/-- **C129, a command line that is parsed.** The extra parser has been called on every token, or on those up to a terminator; then
those behind it are the last arguments of the result, as they are. -/
theorem C129_parsed (c : Cmdline) (g : Talk) (args : List Str) (res : List Opt) (h : (run c g args).1 = .ok res) :
    ∃ rest os tail, args = (run c g args).2 ++ rest ∧ res = os ++ tail ∧ tail.map (·.value) = rest.map ([·]) ∧
      tail.map (·.originalTokens) = rest.map ([·]) ∧ (rest ≠ [] → (run c g args).2.getLast? = some ['-', '-']) := by
  obtain ⟨t, rest, e, e2, -, ho⟩ := loop_heard c g (args.length + 1) [] args
  unfold run at h ⊢
  cases hl : loop c g (args.length + 1) [] args with
  | mk r k =>
    rw [hl] at e2 ho h
    rw [List.nil_append] at e2
    dsimp only at e2
    subst e2
    cases r with
    | error f => cases h
    | ok os =>
      dsimp only at h ⊢
      obtain ⟨hlast, os', rfl⟩ := ho os rfl
      obtain ⟨os2, tail, rfl, ht⟩ := finalize_kept c os' res rest h
      refine ⟨rest, os2, tail, e, rfl, ?_, ?_, hlast⟩
      · have := congrArg (List.map Prod.fst) ht
        rw [List.map_map, List.map_map] at this
        exact this
      · have := congrArg (List.map Prod.snd) ht
        rw [List.map_map, List.map_map] at this
        exact this

/-- **C129, without a terminator** the extra parser is called on each token once, as documented. -/
theorem C129_partial (c : Cmdline) (g : Talk) (args : List Str) (hd : ['-', '-'] ∉ args) (res : List Opt) (h : (run c g args).1 = .ok res) :
    (run c g args).2 = args := by
  obtain ⟨rest, os, tail, e, -, -, -, hl⟩ := C129_parsed c g args res h
  by_cases h0 : rest = []
  · rw [h0, List.append_nil] at e; exact e.symm
  · exfalso
    apply hd
    rw [e]
    exact List.mem_append_left _ (List.mem_of_getLast? (hl h0))

/-- **C129, the calls are all that matters.** A parser that on the tokens of the command line, called in their order, answers as the
function `f`, leads to what the parser `f` leads to. -/
theorem C129_function (c : Cmdline) (g : Talk) (f : Str → Str × Str) (args : List Str)
    (hg : ∀ t x u, args = t ++ x :: u → g t x = .ok (f x)) :
    (run c g args).1 = ({ c with additional := some f, styleParser := none } : Cmdline).run args := by
  have := loop_plays c g f (args.length + 1) [] args (fun t x r e => by rw [List.nil_append]; exact hg t x r e)
  unfold run Cmdline.run Cmdline.runFuel
  rw [← this]
  cases loop c g (args.length + 1) [] args with
  | mk r h =>
    cases r with
    | error e => rfl
    | ok os => exact (finalize_extra c f os).symm

/-! ### Examples -/

namespace Examples
open Test

/-- The options of the examples. -/
def opts : Cmdline := { desc := [od "level,l" (sem vstr), od "quiet,q" unt] }

/-- A parser that counts: the third token it is called with stands for `--quiet`. -/
def third : Talk := fun h _ => .ok (if h.length = 2 then (L "quiet", []) else ([], []))

/-- A parser that throws at a token. -/
def fussy : Talk := fun _ x => if x = L "7" then .error (errSyntax .unrecognizedLine) else .ok ([], [])

example : (run opts third [L "a", L "-l7", L "b", L "--", L "c"]).2 = [L "a", L "-l7", L "b", L "--"] := by decide
example : (run opts third [L "a", L "-l7", L "b"]).1 = .ok [{ value := [L "a"], originalTokens := [L "a"], positionKey := 0 },
    { stringKey := L "level", value := [L "7"], originalTokens := [L "-l7"] }, { stringKey := L "quiet" }] := by rfl
/-- The value of an option is shown to it, too. -/
example : run opts fussy [L "--level", L "7", L "c"] =
    (.error ((errSyntax .unrecognizedLine).addContext (L "level") (L "--level") opts.canonicalPrefix), [L "--level", L "7"]) := by rfl

end Examples

/-- **C129, as documented, is not so**: not every element of the command line is shown to the extra parser. -/
theorem C129_not : ∃ (c : Cmdline) (g : Talk) (args : List Str) (res : List Opt), (run c g args).1 = .ok res ∧ ∃ x ∈ args, x ∉ (run c g args).2 :=
  ⟨{ desc := [] }, fun _ _ => .ok ([], []), [['-', '-'], ['x']], _, rfl, ['x'], by decide, by decide⟩

end ExtraCalls
end PO
