import Verif.Lemmas.Grammar
import Verif.Props.Interchange
/-
C107: how an option is written does not matter.
-/
namespace PO
open Spec

namespace Cmdline

theorem front_item (c : Cmdline) (tok : Str) (i : Item) (h : Spells c tok [i]) : c.front tok = .ok [i.toOpt] :=
  (c.front_spells tok _ (by simp)).2 ⟨[i], h, rfl⟩

theorem lookahead_takeable (c : Cmdline) (v : Str) (h : Takeable c v) :
    c.front v = .ok [] ∨ (∃ o os, c.front v = .ok (o :: os)) ∧ c.lookup v = .ok none := (c.takeable_iff v).1 h

/-- Taking a token as the first value, or having it already. -/
theorem grab_value (c : Cmdline) (hs : c.styleParser = none) (n : Nat) (v : Str) (rest : List Str) (o o' : Opt) (t t' : Str) (hv : Takeable c v)
    (hk : o.stringKey ≠ []) (h : strip o = strip { o' with value := o'.value ++ [v] }) :
    Same (fun a b => Like a.1 b.1 ∧ a.2 = b.2) (c.grab c.parsers n rest o t) (c.grab c.parsers (n + 1) (v :: rest) o' t') := by
  rw [grab, c.lookahead_front hs]
  have hl : Like o { o' with value := o'.value ++ [v], originalTokens := o'.originalTokens ++ [v] } := ⟨h, .inr hk⟩
  rcases c.lookahead_takeable v hv with hf | ⟨⟨p, ps, hf⟩, hn⟩
  · rw [hf]
    exact c.grab_like _ n rest _ _ _ _ hl hk
  · rw [hf]
    simp only [hn]
    exact c.grab_like _ n rest _ _ _ _ hl hk

/-- Finishing an option that has its first value already, or finds it in the next token. -/
theorem finish_value (c : Cmdline) (hs : c.styleParser = none) (o o' : Opt) (d : OptionDesc) (v : Str) (rest : List Str) (h0 : o.stringKey ≠ [])
    (h0' : o'.stringKey ≠ []) (hl : c.lookup o.stringKey = .ok (some d)) (hl' : c.lookup o'.stringKey = .ok (some d))
    (hk : reportedKey d o.stringKey ≠ []) (hkk : reportedKey d o.stringKey = reportedKey d o'.stringKey) (hmin : 1 ≤ d.semantic.minTokens)
    (hmax : d.semantic.maxTokens ≠ 0) (hv : Takeable c v) (ho : o.value = [v]) (ho' : o'.value = [])
    (hst : strip { o with stringKey := [], value := [] } = strip { o' with stringKey := [] }) :
    Same (fun a b => Like a.1 b.1 ∧ a.2 = b.2) (c.finishOption c.parsers o rest) (c.finishOption c.parsers o' (v :: rest)) := by
  unfold finishOption
  rw [if_neg h0, if_neg h0', hl, hl']
  simp only
  rw [ho, ho']
  have e1 : ([v] : List Str).length + rest.length = ([] : List Str).length + (v :: rest).length := by simp; omega
  rw [e1]
  by_cases hm : ([] : List Str).length + (v :: rest).length ≥ d.semantic.minTokens
  · rw [if_pos hm, if_pos hm, if_neg (by rintro ⟨_, h⟩; exact hmax h), if_neg (by rintro ⟨h, _⟩; exact h rfl)]
    obtain ⟨k, hk1⟩ : ∃ k, d.semantic.minTokens = k + 1 := ⟨d.semantic.minTokens - 1, by omega⟩
    rw [hk1, show k + 1 - ([v] : List Str).length = k by simp, show k + 1 - ([] : List Str).length = k + 1 by simp]
    have hkey : d.key o.stringKey ≠ [] := by rw [key_eq]; exact hk
    refine c.grab_value hs k v rest _ _ _ _ hv hkey ?_
    have q1 : o.positionKey = o'.positionKey := congrArg (·.positionKey) hst
    have q2 : o.unregistered = o'.unregistered := congrArg (·.unregistered) hst
    have q3 : o.caseInsensitive = o'.caseInsensitive := congrArg (·.caseInsensitive) hst
    simp only [strip, q1, q2, q3, key_eq, hkk, List.nil_append]
  · rw [if_neg hm, if_neg hm]; trivial

theorem first_plain (c : Cmdline) (hs : c.styleParser = none) (v : Str) (rest : List Str) (hv : Plain c v) (hd : v ≠ ['-', '-']) :
    c.first (v :: rest) = match c.first rest with
      | .error f => .error f
      | .ok more => .ok ({ value := [v], originalTokens := [v] } :: more) := by
  unfold first
  rw [List.length_cons, loop, c.step_eq hs, (c.front_plain v).2 hv]
  simp only
  rw [if_neg hd]
  rfl

/-- The options before one that has a name do not reach beyond it. -/
theorem absorb_stop (lim : Option Nat) (x y : Opt) (os more : List Opt) (hy : y.stringKey ≠ []) : absorb lim x (os ++ y :: more) = absorb lim x os := by
  induction os generalizing lim x with
  | nil => rw [List.nil_append, absorb, absorb, if_pos hy]; split <;> rfl
  | cons p ps ih =>
    rw [List.cons_append, absorb, absorb]
    simp only [ih]

theorem absorb_count (lim : Option Nat) (x x' : Opt) (os : List Opt) (k : Nat) (h : absorb lim x os = .ok (x', k)) : k ≤ os.length := by
  induction os generalizing lim x k with
  | nil => rw [absorb] at h; cases h; simp
  | cons p ps ih =>
    rw [absorb] at h
    split at h
    · cases h; simp
    split at h
    · cases h; simp
    split at h
    · cases h; simp
    cases hv : p.value with
    | nil => rw [hv] at h; cases h
    | cons a as =>
      rw [hv] at h
      cases as with
      | cons _ _ => cases h
      | nil =>
        cases ht : p.originalTokens with
        | nil => rw [ht] at h; cases h
        | cons t ts =>
          rw [ht] at h
          cases ts with
          | cons _ _ => cases h
          | nil =>
            simp only at h
            cases hr : absorb (lim.map (· - 1)) { x with value := x.value ++ [a], originalTokens := x.originalTokens ++ [t] } ps with
            | error f => rw [hr] at h; cases h
            | ok r =>
              obtain ⟨y, m⟩ := r
              rw [hr] at h
              cases h
              have := ih _ _ _ hr
              simp only [List.length_cons]; omega

/-- The second pass gives an option that may have a value the argument that follows. -/
theorem regroup_value (c : Cmdline) (o o' : Opt) (d : OptionDesc) (v : Str) (more : List Opt) (hl : Like o { o' with value := [v] })
    (hk : o.stringKey ≠ []) (ho' : o'.value = []) (hd : c.lookup o.stringKey = .ok (some d))
    (hmin : d.semantic.minTokens = 0) (hmax : d.semantic.maxTokens ≠ 0) (hint : d.semantic.maxTokens ≠ 2147483648) (os : List Opt) (k : Nat) (hko : k ≤ os.length) :
    Same Likes (c.regroup k (os ++ o :: more)) (c.regroup k (os ++ o' :: { value := [v], originalTokens := [v] } :: more)) := by
  have hkey : o.stringKey = o'.stringKey := hl.key
  have hval : o.value = [v] := hl.value
  induction os generalizing k with
  | nil =>
    obtain rfl : k = 0 := by simpa using hko
    have hc : ∀ (p p' : Opt) k, Like p p' → Same Likes (match c.regroup k more with
          | .error f => Except.error f
          | .ok os => .ok (p :: os)) (match c.regroup k more with
          | .error f => Except.error f
          | .ok os => .ok (p' :: os)) := by
      intro p p' k hp
      generalize c.regroup k more = r
      cases r with
      | error f => trivial
      | ok l => exact .cons hp (Likes.refl l)
    rw [List.nil_append, List.nil_append, regroup, regroup]
    simp only
    rw [if_neg hk, ← hkey, if_neg hk, hd]
    simp only
    rw [hval, ho', hmin]
    rw [if_pos (show 0 < d.semantic.maxTokens ∧ ([] : List Str).length < d.semantic.maxTokens from ⟨by omega, by simp; omega⟩)]
    have hlim : takeLimit d.semantic.maxTokens ([] : List Str).length ≠ some 0 := by
      unfold takeLimit; split <;> simp [hmax]
    have hlim1 : takeLimit d.semantic.maxTokens ([v] : List Str).length = (takeLimit d.semantic.maxTokens ([] : List Str).length).map (· - 1) := by
      unfold takeLimit
      by_cases hb : d.semantic.maxTokens < 2147483648
      · rw [if_pos (by simp; omega), if_pos (by simpa using hb)]; simp
      · rw [if_neg (by simp; omega), if_neg (by simpa using hb)]; rfl
    have habs : absorb (takeLimit d.semantic.maxTokens ([] : List Str).length) o' ({ value := [v], originalTokens := [v] } :: more) =
        match absorb ((takeLimit d.semantic.maxTokens ([] : List Str).length).map (· - 1))
            { o' with value := o'.value ++ [v], originalTokens := o'.originalTokens ++ [v] } more with
        | .error f => .error f
        | .ok (q, k) => .ok (q, k + 1) := by
      rw [absorb, if_neg hlim, if_neg (by simp), if_neg (by simp [intMax])]
      rfl
    rw [habs, ← hlim1]
    have hl2 : Like o { o' with value := o'.value ++ [v], originalTokens := o'.originalTokens ++ [v] } := by
      refine ⟨?_, .inr hk⟩
      rw [hl.same, ho']
      rfl
    by_cases h1 : 1 < d.semantic.maxTokens
    · rw [if_pos ⟨by omega, by simpa using h1⟩]
      have := absorb_like (takeLimit d.semantic.maxTokens ([v] : List Str).length) _ _ more more hk hl2 (Likes.refl _)
      revert this
      generalize absorb (takeLimit d.semantic.maxTokens ([v] : List Str).length) o more = r
      generalize absorb (takeLimit d.semantic.maxTokens ([v] : List Str).length) { o' with value := o'.value ++ [v], originalTokens := o'.originalTokens ++ [v] } more = r'
      intro this
      cases r <;> cases r' <;> simp only [Same] at this ⊢
      rename_i a b
      obtain ⟨a1, a2⟩ := a
      obtain ⟨b1, b2⟩ := b
      obtain ⟨q1, _, rfl⟩ := this
      simp only
      rw [regroup]
      exact hc _ _ _ q1
    · rw [if_neg (by rintro ⟨_, h⟩; exact h1 (by simpa using h))]
      have hm1 : d.semantic.maxTokens = 1 := by omega
      rw [hm1]
      have : absorb (takeLimit 1 ([v] : List Str).length) { o' with value := o'.value ++ [v], originalTokens := o'.originalTokens ++ [v] } more =
          .ok ({ o' with value := o'.value ++ [v], originalTokens := o'.originalTokens ++ [v] }, 0) := by
        cases more with
        | nil => rw [absorb]
        | cons p ps => rw [absorb]; rfl
      rw [this]
      simp only
      rw [regroup]
      exact hc _ _ _ hl2
  | cons x os ih =>
    cases k with
    | succ k => rw [List.cons_append, List.cons_append, regroup, regroup]; exact ih k (by simpa using hko)
    | zero =>
      have hc : ∀ (p : Opt) k, k ≤ os.length → Same Likes (match c.regroup k (os ++ o :: more) with
          | .error f => Except.error f
          | .ok os => .ok (p :: os)) (match c.regroup k (os ++ o' :: { value := [v], originalTokens := [v] } :: more) with
          | .error f => Except.error f
          | .ok os => .ok (p :: os)) := by
        intro p k hk
        have := ih k hk
        revert this
        generalize c.regroup k (os ++ o :: more) = r
        generalize c.regroup k (os ++ o' :: { value := [v], originalTokens := [v] } :: more) = r'
        intro this
        cases r <;> cases r' <;> simp only [Same] at this ⊢
        exact .cons (Like.refl p) this
      rw [List.cons_append, List.cons_append, regroup, regroup]
      simp only
      by_cases hx : x.stringKey = []
      · rw [if_pos hx, if_pos hx]; exact hc x 0 (by omega)
      · rw [if_neg hx, if_neg hx]
        cases c.lookup x.stringKey with
        | error f =>
          cases f with
          | opt e => cases x.originalTokens <;> trivial
          | _ => trivial
        | ok q =>
          cases q with
          | none => exact hc x 0 (by omega)
          | some q =>
            simp only
            by_cases hm : q.semantic.minTokens < q.semantic.maxTokens ∧ x.value.length < q.semantic.maxTokens
            · rw [if_pos hm, if_pos hm, absorb_stop _ _ _ _ _ hk, absorb_stop _ _ _ _ _ (by rw [← hkey]; exact hk)]
              cases hr : absorb (takeLimit q.semantic.maxTokens x.value.length) x os with
              | error f => trivial
              | ok r =>
                obtain ⟨x', m⟩ := r
                exact hc x' m (absorb_count _ _ _ _ _ hr)
            · rw [if_neg hm, if_neg hm]
              exact hc x 0 (by omega)

theorem run_regroup (c : Cmdline) (hs : c.styleParser = none) (pre s s' : List Str) (os : List Opt) (h : Pass c pre os) (hd : ['-', '-'] ∉ pre)
    (hl : Same (fun a b => Same Likes (c.regroup 0 (os ++ a)) (c.regroup 0 (os ++ b))) (c.first s) (c.first s')) :
    ((c.run (pre ++ s)).toOption.map (List.map strip)) = ((c.run (pre ++ s')).toOption.map (List.map strip)) := by
  rw [c.run_first hs, c.run_first hs, c.first_append hs pre s os h hd, c.first_append hs pre s' os h hd]
  revert hl
  generalize c.first s = r
  generalize c.first s' = r'
  intro hl
  cases r <;> cases r' <;> simp only [Same] at hl ⊢
  · rfl
  · have := c.finalize_regrouped _ _ hl
    revert this
    generalize c.finalize (os ++ _) = q
    generalize c.finalize (os ++ _) = q'
    intro this
    cases q <;> cases q' <;> simp only [Same] at this
    · rfl
    · simp only [Except.toOption, Option.map_some, this]

end Cmdline

/-! ### C107 -/

/-- **C107.** Two tokens that give the same declared option, however they are written -- `--name`, `-name`, `/name`, `-n`, `/n`, with or without
a value in the token, or in the syntax of an extra parser -- can be exchanged for each other anywhere an option may start: the command
line is accepted or refused as before, and means the same. -/
theorem C107_written (c : Cmdline) (hs : c.styleParser = none) (pre rest : List Str) (r : List Opt) (hpre : c.run pre = .ok r)
    (hdash : ['-', '-'] ∉ pre) (tok tok' n n' : Str) (vs ts ts' : List Str) (d : OptionDesc) (h : Spells c tok [⟨n, vs, ts⟩]) (h' : Spells c tok' [⟨n', vs, ts'⟩])
    (h0 : n ≠ []) (h0' : n' ≠ []) (hd : Denotes c n d) (hd' : Denotes c n' d) (hk : reportedKey d n = reportedKey d n') (hne : reportedKey d n ≠ []) :
    meaning (c.run (pre ++ tok :: rest)) = meaning (c.run (pre ++ tok' :: rest)) := by
  obtain ⟨os, hp, _⟩ := (c.run_pass hs pre r).1 hpre
  refine Cmdline.meaning_eq (c.run_like hs pre _ _ os hp hdash (c.first_finish hs _ _ _ _ rest (c.front_item _ _ h) (c.front_item _ _ h') ?_))
  exact c.finish_named _ _ _ d rest h0 h0' (Cmdline.lookup_denotes.2 hd) (Cmdline.lookup_denotes.2 hd') hne hk rfl

/-- The value may also be in the next token, provided that it is not an option there: if the option needs a value, any token will do that
does not name a declared option; if it only may have one, a token that does not look like an option, nor is `--`. -/
theorem C107_value (c : Cmdline) (hs : c.styleParser = none) (pre rest : List Str) (r : List Opt) (hpre : c.run pre = .ok r)
    (hdash : ['-', '-'] ∉ pre) (tok tok' n n' v : Str) (ts ts' : List Str) (d : OptionDesc) (h : Spells c tok [⟨n, [v], ts⟩]) (h' : Spells c tok' [⟨n', [], ts'⟩])
    (h0 : n ≠ []) (h0' : n' ≠ []) (hd : Denotes c n d) (hd' : Denotes c n' d) (hk : reportedKey d n = reportedKey d n') (hne : reportedKey d n ≠ [])
    (hmax : d.semantic.maxTokens ≠ 0)
    (hv : 1 ≤ d.semantic.minTokens ∧ Takeable c v ∨
      d.semantic.maxTokens ≠ 2147483648 ∧ Denotes c (reportedKey d n) d ∧ Plain c v ∧ v ≠ ['-', '-']) :
    meaning (c.run (pre ++ tok :: rest)) = meaning (c.run (pre ++ tok' :: v :: rest)) := by
  obtain ⟨os, hp, _⟩ := (c.run_pass hs pre r).1 hpre
  have hl := Cmdline.lookup_denotes.2 hd
  have hl' := Cmdline.lookup_denotes.2 hd'
  by_cases hmin : 1 ≤ d.semantic.minTokens
  · have ht : Takeable c v := by
      rcases hv with ⟨_, h⟩ | ⟨_, _, h, _⟩
      · exact h
      · exact .inl h
    have hfin := c.finish_value hs (Item.toOpt ⟨n, [v], ts⟩) (Item.toOpt ⟨n', [], ts'⟩) d v rest h0 h0' hl hl' hne hk hmin hmax ht rfl rfl rfl
    refine Cmdline.meaning_eq (c.run_like hs pre _ _ os hp hdash ?_)
    rw [c.first_cons hs _ _ _ _ (c.front_item _ _ h), c.first_cons hs _ _ _ _ (c.front_item _ _ h'), Cmdline.finishAll, Cmdline.finishAll]
    revert hfin
    generalize c.finishOption c.parsers (Item.toOpt ⟨n, [v], ts⟩) rest = q
    generalize c.finishOption c.parsers (Item.toOpt ⟨n', [], ts'⟩) (v :: rest) = q'
    intro hfin
    cases q with
    | error e => cases q' with
      | error e' => trivial
      | ok b => exact hfin.elim
    | ok a => cases q' with
      | error e' => exact hfin.elim
      | ok b =>
        obtain ⟨a1, a2⟩ := a
        obtain ⟨b1, b2⟩ := b
        obtain ⟨h1, rfl⟩ := hfin
        simp only
        generalize c.first a2 = q
        cases q with
        | error e => trivial
        | ok more => exact .cons h1 (Cmdline.Likes.refl _)
  · have hmin : d.semantic.minTokens = 0 := by omega
    rcases hv with ⟨h, _⟩ | ⟨hint, hdk, hpl, hvd⟩
    · omega
    have fin : ∀ (o : Opt) (rest : List Str), o.stringKey ≠ [] → c.lookup o.stringKey = .ok (some d) →
        c.finishAll c.parsers [o] rest = .ok ([{ o with stringKey := reportedKey d o.stringKey }], rest) := by
      intro o rest h0 hl
      rw [Cmdline.finishAll]
      unfold Cmdline.finishOption
      rw [if_neg h0, hl]
      simp only
      rw [if_pos (by omega), if_neg (by rintro ⟨_, h⟩; exact hmax h), hmin, Nat.zero_sub, Cmdline.grab, key_eq]
    refine Cmdline.meaning_eq (c.run_regroup hs pre _ _ os hp hdash ?_)
    rw [c.first_cons hs _ _ _ _ (c.front_item _ _ h), c.first_cons hs _ _ _ _ (c.front_item _ _ h'), fin _ _ h0 hl, fin _ _ h0' hl']
    simp only
    rw [c.first_plain hs v rest hpl hvd]
    generalize c.first rest = q
    cases q with
    | error e => trivial
    | ok more =>
      simp only [Cmdline.Same, List.singleton_append]
      refine c.regroup_value _ _ d v more ⟨?_, .inr hne⟩ hne rfl (Cmdline.lookup_denotes.2 hdk) hmin hmax hint os 0 (by omega)
      simp only [Cmdline.strip, Item.toOpt, hk]

/-- All ways to write options, and no guessing. -/
def writtenDemo : Cmdline :=
  { style := Style.allowLong ||| Style.allowShort ||| Style.allowDashForShort ||| Style.allowSlashForShort ||| Style.allowLongDisguise
    desc := [Test.od "number,n" (Test.sem Test.vstr), Test.od "log,l" (Test.sem { Test.vstr with implicit := some (.scalar (.str []), []) })], additional := none }

example : (∃ d, Denotes writtenDemo (Test.L "number") d ∧ Denotes writtenDemo (Test.L "-n") d ∧ d.semantic.minTokens = 1 ∧
      reportedKey d (Test.L "number") = Test.L "number" ∧ reportedKey d (Test.L "-n") = Test.L "number") ∧
    Spells writtenDemo (Test.L "/number=5") [⟨Test.L "number", [['5']], [Test.L "--number=5"]⟩] ∧
    Spells writtenDemo (Test.L "/n5") [⟨Test.L "-n", [['5']], [Test.L "/n5"]⟩] ∧
    Spells writtenDemo (Test.L "-number") [⟨Test.L "number", [], [Test.L "--number"]⟩] ∧ Plain writtenDemo ['5'] ∧
    (∀ args ∈ [["--number=5"], ["-number=5"], ["/number=5"], ["-n5"], ["/n5"], ["--number", "5"], ["/number", "5"], ["/n", "5"]],
      (writtenDemo.run ((args ++ ["x"]).map Test.L)).map (·.map fun o => (o.stringKey, o.value)) = .ok [(Test.L "number", [['5']]), ([], [['x']])]) := by
  refine ⟨⟨Test.od "number,n" (Test.sem Test.vstr), Cmdline.lookup_denotes.1 rfl, Cmdline.lookup_denotes.1 rfl, rfl, by decide, by decide⟩, ?_, ?_, ?_, ?_, ?_⟩
  · exact .disguisedEq '/' (Test.L "number") ['5'] (Test.od "number,n" (Test.sem Test.vstr)) nofun (by unfold Enabled; decide) rfl
      ⟨by decide, .inr ⟨rfl, by unfold Enabled; decide⟩⟩ (by decide) (by decide) (Cmdline.lookup_denotes.1 rfl)
  · exact .slash 'n' ['5'] nofun (by unfold Enabled; decide) rfl
      (by intro _ lead rest e _; cases e; unfold Unknown Exact Approximate; decide)
  · exact .disguised '-' (Test.L "number") (Test.od "number,n" (Test.sem Test.vstr)) nofun (by unfold Enabled; decide) rfl
      ⟨by decide, .inl ⟨rfl, by decide⟩⟩ (by decide) (Cmdline.lookup_denotes.1 rfl)
  · refine (Cmdline.front_plain _ _).1 rfl
  · intro args h
    simp only [List.mem_cons, List.not_mem_nil, or_false] at h
    rcases h with rfl | rfl | rfl | rfl | rfl | rfl | rfl | rfl <;> rfl

/-- An option that may have a value gets it in both ways; but a token that looks like an option is none of its values. -/
example : (∃ d, Denotes writtenDemo (Test.L "log") d ∧ d.semantic.minTokens = 0 ∧ d.semantic.maxTokens = 1) ∧
    (∀ args ∈ [["--log=5"], ["/l5"], ["--log", "5"], ["/l", "5"]],
      (writtenDemo.run ((args ++ ["x"]).map Test.L)).map (·.map fun o => (o.stringKey, o.value)) = .ok [(Test.L "log", [['5']]), ([], [['x']])]) ∧
    (writtenDemo.run [Test.L "--log=--number=1"]).map (·.map fun o => (o.stringKey, o.value)) = .ok [(Test.L "log", [Test.L "--number=1"])] ∧
    (writtenDemo.run [Test.L "--log", Test.L "--number=1"]).map (·.map fun o => (o.stringKey, o.value)) =
      .ok [(Test.L "log", []), (Test.L "number", [['1']])] := by
  refine ⟨⟨writtenDemo.desc[1], Cmdline.lookup_denotes.1 rfl, rfl, rfl⟩, ?_, rfl, rfl⟩
  intro args h
  simp only [List.mem_cons, List.not_mem_nil, or_false] at h
  rcases h with rfl | rfl | rfl | rfl <;> rfl

end PO
