import Verif.Lemmas.CmdlineParts
import Verif.Props.Parse
/-
Command lines that give the same options apart from the recorded tokens.
-/
namespace PO
namespace Cmdline
open Spec

/-- Without the recorded tokens. -/
def strip (o : Opt) : Opt := { o with originalTokens := [] }

/-- Alike apart from the recorded tokens. -/
structure Like (a b : Opt) : Prop where
  same : strip a = strip b
  named : a = b ∨ a.stringKey ≠ []

theorem Like.refl (a : Opt) : Like a a := ⟨rfl, .inl rfl⟩
theorem Like.key {a b : Opt} (h : Like a b) : a.stringKey = b.stringKey := congrArg (·.stringKey) h.same
theorem Like.value {a b : Opt} (h : Like a b) : a.value = b.value := congrArg (·.value) h.same
theorem Like.trans {a b c : Opt} (h1 : Like a b) (h2 : Like b c) : Like a c := by
  refine ⟨h1.same.trans h2.same, ?_⟩
  rcases h1.named with rfl | h
  · exact h2.named
  · exact .inr h

/-- Pointwise. -/
inductive Likes : List Opt → List Opt → Prop
  | nil : Likes [] []
  | cons {a b as bs} (h : Like a b) (t : Likes as bs) : Likes (a :: as) (b :: bs)

theorem Likes.refl (l : List Opt) : Likes l l := by
  induction l with
  | nil => exact .nil
  | cons a l ih => exact .cons (.refl a) ih

theorem Likes.trans {a b c : List Opt} (h1 : Likes a b) (h2 : Likes b c) : Likes a c := by
  induction h1 generalizing c with
  | nil => exact h2
  | cons h t ih => cases h2 with | cons h' t' => exact .cons (h.trans h') (ih t')

theorem Likes.append {a b c d : List Opt} (h1 : Likes a b) (h2 : Likes c d) : Likes (a ++ c) (b ++ d) := by
  induction h1 with
  | nil => exact h2
  | cons h t ih => exact .cons h ih

theorem Likes.strip {a b : List Opt} (h : Likes a b) : a.map strip = b.map strip := by
  induction h with
  | nil => rfl
  | cons h t ih => rw [List.map_cons, List.map_cons, h.same, ih]

/-- The same outcome, up to recorded tokens. -/
def Same (R : α → β → Prop) (r : Except Fail α) (r' : Except Fail β) : Prop :=
  match r, r' with
  | .error _, .error _ => True
  | .ok a, .ok b => R a b
  | _, _ => False

theorem absorb_like (lim : Option Nat) (o o' : Opt) (ps ps' : List Opt) (hk : o.stringKey ≠ []) (h : Like o o') (hp : Likes ps ps') :
    Same (fun a b => Like a.1 b.1 ∧ a.1.stringKey ≠ [] ∧ a.2 = b.2) (absorb lim o ps) (absorb lim o' ps') := by
  induction hp generalizing lim o o' with
  | nil => rw [absorb, absorb]; exact ⟨h, hk, rfl⟩
  | @cons p p' ps ps' hp t ih =>
    rw [absorb, absorb]
    by_cases h0 : lim = some 0
    · rw [if_pos h0, if_pos h0]; exact ⟨h, hk, rfl⟩
    · rw [if_neg h0, if_neg h0, ← hp.key]
      by_cases hpk : p.stringKey = []
      · have hn : ¬ p.stringKey ≠ [] := fun h => h hpk
        rw [if_neg hn, if_neg hn]
        have : p = p' := hp.named.resolve_right (by simp [hpk])
        subst this
        by_cases hi : p.positionKey = intMax
        · rw [if_pos hi, if_pos hi]; exact ⟨h, hk, rfl⟩
        · rw [if_neg hi, if_neg hi]
          match p.value, p.originalTokens with
          | [], _ => trivial
          | _ :: _ :: _, _ => trivial
          | [v], [] => trivial
          | [v], _ :: _ :: _ => trivial
          | [v], [t] =>
            simp only
            have hl : Like { o with value := o.value ++ [v], originalTokens := o.originalTokens ++ [t] }
                { o' with value := o'.value ++ [v], originalTokens := o'.originalTokens ++ [t] } := by
              refine ⟨?_, .inr hk⟩
              have := h.same
              simp only [strip, Opt.mk.injEq] at this ⊢
              simp [this]
            have := ih (lim.map (· - 1)) _ _ (by exact hk) hl
            revert this
            generalize absorb (lim.map (· - 1)) { o with value := o.value ++ [v], originalTokens := o.originalTokens ++ [t] } ps = r
            generalize absorb (lim.map (· - 1)) { o' with value := o'.value ++ [v], originalTokens := o'.originalTokens ++ [t] } ps' = r'
            intro this
            cases r <;> cases r' <;> simp only [Same] at this ⊢
            exact ⟨this.1, this.2.1, by rw [this.2.2]⟩
      · rw [if_pos hpk, if_pos hpk]
        exact ⟨h, hk, rfl⟩

theorem regroup_like (c : Cmdline) (k : Nat) (os os' : List Opt) (h : Likes os os') : Same Likes (c.regroup k os) (c.regroup k os') := by
  induction h generalizing k with
  | nil => rw [regroup]; exact .nil
  | @cons o o' os os' ho t ih =>
    cases k with
    | succ k => rw [regroup, regroup]; exact ih k
    | zero =>
      have hc : ∀ (p p' : Opt) k, Like p p' → Same Likes (match c.regroup k os with
          | .error f => Except.error f
          | .ok os => .ok (p :: os)) (match c.regroup k os' with
          | .error f => Except.error f
          | .ok os => .ok (p' :: os)) := by
        intro p p' k hp
        have := ih k
        revert this
        generalize c.regroup k os = r
        generalize c.regroup k os' = r'
        intro this
        cases r <;> cases r' <;> simp only [Same] at this ⊢
        exact .cons hp this
      rw [regroup, regroup]
      simp only
      rw [← ho.key]
      by_cases hk : o.stringKey = []
      · rw [if_pos hk, if_pos hk]; exact hc o o' 0 ho
      · rw [if_neg hk, if_neg hk]
        cases c.lookup o.stringKey with
        | error f =>
          cases f with
          | opt e => cases o.originalTokens <;> cases o'.originalTokens <;> trivial
          | _ => trivial
        | ok d =>
          cases d with
          | none => exact hc o o' 0 ho
          | some d =>
            simp only
            rw [← ho.value]
            by_cases hm : d.semantic.minTokens < d.semantic.maxTokens ∧ o.value.length < d.semantic.maxTokens
            · rw [if_pos hm, if_pos hm]
              have := absorb_like (takeLimit d.semantic.maxTokens o.value.length) o o' os os' hk ho t
              revert this
              generalize absorb (takeLimit d.semantic.maxTokens o.value.length) o os = r
              generalize absorb (takeLimit d.semantic.maxTokens o.value.length) o' os' = r'
              intro this
              cases r <;> cases r' <;> simp only [Same] at this ⊢
              rw [← this.2.2]
              exact hc _ _ _ this.1
            · rw [if_neg hm, if_neg hm]
              exact hc o o' 0 ho

theorem assignPositions_strip (n : Int) (os : List Opt) : (assignPositions n os).map strip = assignPositions n (os.map strip) := by
  induction os generalizing n with
  | nil => rfl
  | cons o os ih =>
    rw [List.map_cons, assignPositions, assignPositions]
    by_cases h : o.stringKey = []
    · rw [if_pos h, if_pos (show (strip o).stringKey = [] from h), List.map_cons, ih]; rfl
    · rw [if_neg h, if_neg (show ¬ (strip o).stringKey = [] from h), List.map_cons, ih]

theorem namePositional_strip (p : Positional) (n : Nat) (os : List Opt) :
    (namePositional p n os).map (List.map strip) = namePositional p n (os.map strip) := by
  induction os generalizing n with
  | nil => rfl
  | cons o os ih =>
    rw [List.map_cons, namePositional, namePositional]
    rw [show (strip o).positionKey = o.positionKey from rfl]
    by_cases h : o.positionKey ≠ -1
    · rw [if_pos h, if_pos h]
      by_cases hf : p.full n = true
      · rw [if_pos hf, if_pos hf]; rfl
      · rw [if_neg hf, if_neg hf]
        cases p.nameForPosition n with
        | error f => rfl
        | ok nm =>
          simp only
          rw [← ih]
          cases namePositional p (n + 1) os <;> rfl
    · rw [if_neg h, if_neg h, ← ih]
      cases namePositional p n os <;> rfl

theorem setCase_strip (c : Cmdline) (o : Opt) : strip (c.setCase o) = c.setCase (strip o) := by
  unfold setCase
  rw [show (strip o).stringKey = o.stringKey from rfl]
  split <;> rfl

theorem finalize_regrouped (c : Cmdline) (os os' : List Opt) (this : Same Likes (c.regroup 0 os) (c.regroup 0 os')) :
    Same (fun a b => a.map strip = b.map strip) (c.finalize os) (c.finalize os') := by
  unfold finalize
  revert this
  generalize c.regroup 0 os = r
  generalize c.regroup 0 os' = r'
  intro this
  cases r <;> cases r' <;> simp only [Same] at this ⊢
  rename_i r r'
  have e : (c.applyPositional (assignPositions 0 r)).map (List.map strip) = (c.applyPositional (assignPositions 0 r')).map (List.map strip) := by
    unfold applyPositional
    cases c.positional with
    | none => simp only [Except.map, assignPositions_strip, this.strip]
    | some p => simp only [namePositional_strip, assignPositions_strip, this.strip]
  revert e
  generalize c.applyPositional (assignPositions 0 r) = q
  generalize c.applyPositional (assignPositions 0 r') = q'
  intro e
  cases q <;> cases q' <;> simp only [Except.map, Except.ok.injEq] at e ⊢
  · cases e
  · cases e
  · rename_i q q'
    have hq : ∀ l : List Opt, (l.map c.setCase).map strip = (l.map strip).map c.setCase := by
      intro l
      rw [List.map_map, List.map_map]
      congr 1
      funext o
      exact c.setCase_strip o
    rw [hq, hq, e]

theorem finalize_like (c : Cmdline) (os os' : List Opt) (h : Likes os os') :
    Same (fun a b => a.map strip = b.map strip) (c.finalize os) (c.finalize os') :=
  c.finalize_regrouped os os' (c.regroup_like 0 os os' h)

/-! ### The first pass -/

/-- The first pass. -/
def first (c : Cmdline) (args : List Str) : Except Fail (List Opt) := c.loop args.length args

theorem shorten (c : Cmdline) (hs : c.styleParser = none) :
    ∀ p, c.styleParser = some p → ∀ args os rest, p args = .ok (os, rest) → rest.length ≤ args.length := by
  intro p hp; rw [hs] at hp; cases hp

theorem run_first (c : Cmdline) (hs : c.styleParser = none) (args : List Str) :
    c.run args = match c.first args with
      | .error f => .error f
      | .ok os => c.finalize os := by
  unfold run runFuel first
  rw [c.loop_fuel (c.shorten hs) (args.length + 1) args (by omega)]
  rfl

theorem first_cons (c : Cmdline) (hs : c.styleParser = none) (tok : Str) (rest : List Str) (o : Opt) (os : List Opt) (hf : c.front tok = .ok (o :: os)) :
    c.first (tok :: rest) = match c.finishAll c.parsers (o :: os) rest with
      | .error f => .error f
      | .ok (os', rest') =>
        match c.first rest' with
        | .error f => .error f
        | .ok more => .ok (os' ++ more) := by
  unfold first
  rw [List.length_cons, loop, c.step_eq hs, hf]
  simp only
  cases h : c.finishAll c.parsers (o :: os) rest with
  | error f => rfl
  | ok r =>
    obtain ⟨os', rest'⟩ := r
    have := c.finishAll_length _ _ _ _ _ h
    simp only
    rw [c.loop_fuel (c.shorten hs) rest.length rest' this]
    rfl

theorem first_append (c : Cmdline) (hs : c.styleParser = none) (pre s : List Str) (os : List Opt) (h : Pass c pre os) (hd : ['-', '-'] ∉ pre) :
    c.first (pre ++ s) = match c.first s with
      | .error f => .error f
      | .ok more => .ok (os ++ more) := by
  unfold first
  rw [c.loop_append hs pre s os h hd _ (Nat.le_refl _), c.loop_fuel (c.shorten hs) (pre ++ s).length s (by simp)]
  rfl

/-- If the first passes over the rests agree, so do the results. -/
theorem run_like (c : Cmdline) (hs : c.styleParser = none) (pre s s' : List Str) (os : List Opt) (h : Pass c pre os) (hd : ['-', '-'] ∉ pre)
    (hl : Same Likes (c.first s) (c.first s')) :
    ((c.run (pre ++ s)).toOption.map (List.map strip)) = ((c.run (pre ++ s')).toOption.map (List.map strip)) := by
  rw [c.run_first hs, c.run_first hs, c.first_append hs pre s os h hd, c.first_append hs pre s' os h hd]
  revert hl
  generalize c.first s = r
  generalize c.first s' = r'
  intro hl
  cases r <;> cases r' <;> simp only [Same] at hl ⊢
  · rfl
  · have := c.finalize_like _ _ ((Likes.refl os).append hl)
    revert this
    generalize c.finalize (os ++ _) = q
    generalize c.finalize (os ++ _) = q'
    intro this
    cases q <;> cases q' <;> simp only [Same] at this
    · rfl
    · simp only [Except.toOption, Option.map_some, this]

/-! ### Tokens -/

theorem lookahead_skip (p : StyleParser) (ps : List StyleParser) (tok : Str) (h : p [tok] = .ok ([], [tok])) :
    lookahead (p :: ps) [tok] = lookahead ps [tok] := by
  rw [lookahead, h]; rfl

theorem lookahead_skips (ps qs : List StyleParser) (tok : Str) (h : ∀ p ∈ ps, p [tok] = .ok ([], [tok])) :
    lookahead (ps ++ qs) [tok] = lookahead qs [tok] := by
  induction ps with
  | nil => rfl
  | cons p ps ih =>
    rw [List.cons_append, lookahead_skip _ _ _ (h p (by simp))]
    exact ih fun q hq => h q (by simp [hq])

theorem lookahead_hit (p : StyleParser) (ps : List StyleParser) (tok : Str) (l : List Opt) (h : p [tok] = .ok (l, [])) (hl : l ≠ []) :
    lookahead (p :: ps) [tok] = .ok l := by
  rw [lookahead, h]; simp [hl]

theorem lookahead_err_hit (p : StyleParser) (ps : List StyleParser) (tok : Str) (f : Fail) (h : p [tok] = .error f) :
    lookahead (p :: ps) [tok] = .error f := by
  rw [lookahead, h]

theorem skip_additional (c : Cmdline) (tok : Str) (h : Unclaimed c tok) :
    ∀ p ∈ (match c.additional with | some f => [parseAdditional f] | none => ([] : List StyleParser)), p [tok] = .ok ([], [tok]) := by
  intro p hp
  split at hp
  · rename_i f hf
    simp at hp; subst hp
    rw [parseAdditional]
    simp only [if_pos (h f hf)]
  · simp at hp

theorem front_long_eq (c : Cmdline) (hl : Enabled c Style.allowLong) (name v : Str) (hn : '=' ∉ name) (hv : v ≠ [])
    (hu : Unclaimed c ('-' :: '-' :: name ++ '=' :: v)) :
    c.front ('-' :: '-' :: name ++ '=' :: v) =
      .ok [{ stringKey := name, value := [v], originalTokens := ['-' :: '-' :: name ++ '=' :: v] }] := by
  unfold front tokParsers
  rw [if_pos (show active c.style Style.allowLong = true from hl)]
  simp only [List.append_assoc]
  refine (lookahead_skips _ _ _ (c.skip_additional _ hu)).trans ?_
  rw [List.singleton_append]
  exact lookahead_hit _ _ _ _ (c.parseLong_eq name v [] hn hv) (by simp)

theorem front_long_name (c : Cmdline) (hl : Enabled c Style.allowLong) (name : Str) (hn : '=' ∉ name) (h0 : name ≠ [])
    (hu : Unclaimed c ('-' :: '-' :: name)) :
    c.front ('-' :: '-' :: name) = .ok [{ stringKey := name, originalTokens := ['-' :: '-' :: name] }] := by
  unfold front tokParsers
  rw [if_pos (show active c.style Style.allowLong = true from hl)]
  simp only [List.append_assoc]
  refine (lookahead_skips _ _ _ (c.skip_additional _ hu)).trans ?_
  rw [List.singleton_append]
  exact lookahead_hit _ _ _ _ (c.parseLong_name name [] hn h0) (by simp)

theorem front_short (c : Cmdline) (hs : Enabled c Style.allowShort ∧ Enabled c Style.allowDashForShort) (hd : ¬ Enabled c Style.allowLongDisguise)
    (a : Char) (t : Str) (ha : a ≠ '-') (hu : Unclaimed c ('-' :: a :: t)) :
    c.front ('-' :: a :: t) = c.shortLoop ('-' :: a :: t) ['-', a] t := by
  unfold front tokParsers
  rw [if_neg (show ¬ active c.style Style.allowLongDisguise = true from hd),
    if_pos (show (active c.style Style.allowShort && active c.style Style.allowDashForShort) = true by
      rw [show active c.style Style.allowShort = true from hs.1, show active c.style Style.allowDashForShort = true from hs.2]; rfl)]
  simp only [List.append_assoc]
  refine (lookahead_skips _ _ _ (c.skip_additional _ hu)).trans ?_
  rw [lookahead_skips, List.nil_append, List.singleton_append]
  · have hp : c.parseShort [('-' :: a :: t)] = match c.shortLoop ('-' :: a :: t) ['-', a] t with
      | .error f => .error f
      | .ok os => .ok (os, []) := by
      rw [parseShort, if_pos (by simp [ha])]
      simp only [substr, List.drop_zero, List.take_succ_cons, List.take_zero, List.drop_succ_cons]
      rfl
    cases hsl : c.shortLoop ('-' :: a :: t) ['-', a] t with
    | error f => rw [hsl] at hp; exact lookahead_err_hit _ _ _ _ hp
    | ok l => rw [hsl] at hp; exact lookahead_hit _ _ _ _ hp (c.shortLoop_ne _ _ _ _ hsl)
  · intro p hp
    split at hp
    · simp at hp; subst hp
      apply c.parseLong_other
      right
      simp [ha.symm]
    · simp at hp

theorem findShort_denotes (c : Cmdline) (a : Char) (d : OptionDesc) (h : DenotesShort c a d) : c.findShort ['-', a] = .ok (some d) := by
  unfold findShort
  unfold DenotesShort at h
  rw [C01_lookup_decision]
  simp only [h]

theorem findShort_unknown (c : Cmdline) (a : Char) (h : UnknownShort c a) : c.findShort ['-', a] = .ok none := by
  unfold findShort
  unfold UnknownShort at h
  rw [C01_lookup_decision]
  have he : exacts c.desc ['-', a] false (active c.style Style.shortCaseInsensitive) = [] := by
    simp only [exacts, List.filter_eq_nil_iff]
    intro d hd
    simpa using (h d hd).1
  have ha : approximates c.desc ['-', a] false false (active c.style Style.shortCaseInsensitive) = [] := by
    simp only [approximates, List.filter_eq_nil_iff]
    intro d hd
    simpa using fun _ => (h d hd).2
  simp only [he, ha]

theorem tokParsers_cases (c : Cmdline) (p : StyleParser) (h : p ∈ c.tokParsers) :
    (∃ f, c.additional = some f ∧ p = parseAdditional f) ∨ (Enabled c Style.allowLong ∧ p = c.parseLong) ∨
    (Enabled c Style.allowLongDisguise ∧ p = c.parseDisguised) ∨
    ((Enabled c Style.allowShort ∧ Enabled c Style.allowDashForShort) ∧ p = c.parseShort) ∨
    ((Enabled c Style.allowShort ∧ Enabled c Style.allowSlashForShort) ∧ p = parseDos) := by
  unfold tokParsers at h
  simp only [List.mem_append] at h
  rcases h with (((h | h) | h) | h) | h
  · split at h
    · rename_i f hf
      simp at h
      exact .inl ⟨f, hf, h⟩
    · simp at h
  · split at h
    · rename_i he; simp at h; exact .inr (.inl ⟨he, h⟩)
    · simp at h
  · split at h
    · rename_i he; simp at h; exact .inr (.inr (.inl ⟨he, h⟩))
    · simp at h
  · split at h
    · rename_i he; simp at h he; exact .inr (.inr (.inr (.inl ⟨he, h⟩)))
    · simp at h
  · split at h
    · rename_i he; simp at h he; exact .inr (.inr (.inr (.inr ⟨he, h⟩)))
    · simp at h

theorem front_skip (c : Cmdline) (tok : Str) (h : ∀ p ∈ c.tokParsers, p [tok] = .ok ([], [tok])) : c.front tok = .ok [] := by
  unfold front
  have := lookahead_skips c.tokParsers [] tok h
  rw [List.append_nil] at this
  rw [this]
  rfl

/-- Tokens that look like values are taken as such. -/
theorem front_valueLike (c : Cmdline) (v : Str) (h : ValueLike c v) (hu : Unclaimed c v) :
    ∃ l, c.front v = .ok l ∧ (l = [] ∨ c.lookup v = .ok none) := by
  cases h with
  | plain h1 h2 =>
    refine ⟨[], c.front_skip v ?_, .inl rfl⟩
    intro p hp
    rcases c.tokParsers_cases p hp with ⟨f, hf, rfl⟩ | ⟨_, rfl⟩ | ⟨_, rfl⟩ | ⟨_, rfl⟩ | ⟨he, rfl⟩
    · rw [parseAdditional]; simp only [if_pos (hu f hf)]
    · apply c.parseLong_other
      right
      rintro ⟨t, rfl⟩
      simp at h1
    · rw [parseDisguised, if_neg]
      rintro ⟨_, ⟨h, _⟩ | ⟨he, h⟩⟩
      · rw [List.head?_eq_getElem?] at h1; exact h1 h
      · rw [List.head?_eq_getElem?] at h2; exact h2 h he
    · rw [parseShort, if_neg]
      rintro ⟨_, h, _⟩
      rw [List.head?_eq_getElem?] at h1; exact h1 h
    · rw [parseDos, if_neg]
      rintro ⟨_, h⟩
      rw [List.head?_eq_getElem?] at h2; exact h2 h he.2
  | short x t hv hx hus hk hd =>
    subst hv
    by_cases hs : Enabled c Style.allowShort ∧ Enabled c Style.allowDashForShort
    · rw [c.front_short hs hd x t hx hu]
      cases t with
      | nil =>
        rw [shortLoop, c.findShort_unknown x hus]
        exact ⟨_, rfl, .inr (lookup_unknown.2 hk)⟩
      | cons b t =>
        rw [shortLoop, c.findShort_unknown x hus]
        simp only
        rw [if_neg (by simp [takesNoValue])]
        exact ⟨_, rfl, .inr (lookup_unknown.2 hk)⟩
    · refine ⟨[], c.front_skip _ ?_, .inl rfl⟩
      intro p hp
      rcases c.tokParsers_cases p hp with ⟨f, hf, rfl⟩ | ⟨_, rfl⟩ | ⟨he, rfl⟩ | ⟨he, rfl⟩ | ⟨he, rfl⟩
      · rw [parseAdditional]; simp only [if_pos (hu f hf)]
      · apply c.parseLong_other
        right
        simp [hx.symm]
      · exact absurd he hd
      · exact absurd he hs
      · rw [parseDos, if_neg (by simp)]
  | long s hv hs he hk =>
    subst hv
    cases hf : c.front ('-' :: '-' :: s) with
    | ok l => exact ⟨l, rfl, .inr (lookup_unknown.2 hk)⟩
    | error f =>
      exfalso
      have hno : ∀ p ∈ c.tokParsers, ∀ f, p ['-' :: '-' :: s] ≠ .error f := by
        intro p hp f h
        rcases c.tokParsers_cases p hp with ⟨g, hg, rfl⟩ | ⟨_, rfl⟩ | ⟨_, rfl⟩ | ⟨_, rfl⟩ | ⟨_, rfl⟩
        · rw [parseAdditional] at h; simp only [if_pos (hu g hg)] at h; cases h
        · rcases long_cases s with h' | ⟨name, h', hn⟩ | ⟨name, v, rfl, hn, hv⟩
          · rw [c.parseLong_name s [] h' hs] at h; cases h
          · exact he name hn h'
          · have := c.parseLong_eq name v [] hn hv
            rw [List.cons_append, List.cons_append] at this
            rw [this] at h; cases h
        · rw [parseDisguised, if_neg (by simp)] at h; cases h
        · rw [parseShort, if_neg (by simp)] at h; cases h
        · rw [parseDos, if_neg (by simp)] at h; cases h
      have hall : ∀ ps : List StyleParser, (∀ p ∈ ps, TokParser p) → (∀ p ∈ ps, ∀ f, p ['-' :: '-' :: s] ≠ .error f) → ∀ f, lookahead ps ['-' :: '-' :: s] ≠ .error f := by
        intro ps
        induction ps with
        | nil => intro _ _ f h; cases h
        | cons p ps ih =>
          intro htp hp f h
          obtain ⟨g, hg⟩ := htp p (by simp)
          rw [lookahead_cons_tok hg] at h
          cases hgt : g ('-' :: '-' :: s) with
          | error f => 
            have := hp p (by simp) f
            rw [hg, hgt] at this
            exact this rfl
          | ok l =>
            rw [hgt] at h
            cases l with
            | nil => exact ih (fun p h => htp p (by simp [h])) (fun p h => hp p (by simp [h])) f h
            | cons o l => cases h
      exact hall _ c.tokParsers_tok hno f hf
  | dash hv =>
    refine ⟨[], c.front_skip v ?_, .inl rfl⟩
    intro p hp
    rcases c.tokParsers_cases p hp with ⟨f, hf, rfl⟩ | ⟨_, rfl⟩ | ⟨_, rfl⟩ | ⟨_, rfl⟩ | ⟨he, rfl⟩
    · rw [parseAdditional]; simp only [if_pos (hu f hf)]
    all_goals rcases hv with rfl | rfl
    · rfl
    · rfl
    · rw [parseDisguised, if_neg (by simp)]
    · rw [parseDisguised, if_neg (by simp)]
    all_goals rfl

/-- Finishing an option that takes one token and has it. -/
theorem finish_adjacent (c : Cmdline) (ps : List StyleParser) (opt : Opt) (d : OptionDesc) (v : Str) (rest : List Str) (hk : opt.stringKey ≠ [])
    (hl : c.lookup opt.stringKey = .ok (some d)) (hv : opt.value = [v]) (hmin : d.semantic.minTokens = 1) (hmax : d.semantic.maxTokens ≠ 0) :
    c.finishAll ps [opt] rest = .ok ([{ opt with stringKey := d.key opt.stringKey }], rest) := by
  rw [finishAll]
  unfold finishOption
  rw [if_neg hk, hl]
  simp only
  rw [if_pos (by rw [hv, hmin]; simp), if_neg (by rintro ⟨_, h⟩; exact hmax h), hv, hmin]
  simp [grab]

/-- Finishing an option that takes one token and finds it in the next token. -/
theorem finish_separate (c : Cmdline) (hs : c.styleParser = none) (opt : Opt) (d : OptionDesc) (v : Str) (rest : List Str) (hk : opt.stringKey ≠ [])
    (hl : c.lookup opt.stringKey = .ok (some d)) (hv : opt.value = []) (hmin : d.semantic.minTokens = 1)
    (hval : ValueLike c v) (hu : Unclaimed c v) :
    c.finishAll c.parsers [opt] (v :: rest) =
      .ok ([{ opt with stringKey := d.key opt.stringKey, value := [v], originalTokens := opt.originalTokens ++ [v] }], rest) := by
  rw [finishAll]
  unfold finishOption
  rw [if_neg hk, hl]
  simp only
  rw [if_pos (by rw [hv, hmin]; simp), if_neg (by rintro ⟨h, _⟩; exact h hv), hv, hmin]
  have : 1 - ([] : List Str).length = 0 + 1 := rfl
  rw [this, grab, c.lookahead_front hs]
  obtain ⟨l, hf, h⟩ := c.front_valueLike v hval hu
  rw [hf]
  cases l with
  | nil => simp [grab]
  | cons o l =>
    simp only [reduceCtorEq, false_or] at h
    simp only [h, grab, List.nil_append]

theorem grab_like (c : Cmdline) (ps : List StyleParser) (n : Nat) (other : List Str) (o o' : Opt) (t t' : Str) (h : Like o o') (hk : o.stringKey ≠ []) :
    Same (fun a b => Like a.1 b.1 ∧ a.2 = b.2) (c.grab ps n other o t) (c.grab ps n other o' t') := by
  induction n generalizing other o o' t t' with
  | zero => rw [grab, grab]; exact ⟨h, rfl⟩
  | succ n ih =>
    cases other with
    | nil => rw [grab, grab]; exact ⟨h, rfl⟩
    | cons w ws =>
      have hl : Like { o with value := o.value ++ [w], originalTokens := o.originalTokens ++ [w] }
          { o' with value := o'.value ++ [w], originalTokens := o'.originalTokens ++ [w] } := by
        refine ⟨?_, .inr hk⟩
        have := h.same
        simp only [strip, Opt.mk.injEq] at this ⊢
        simp [this]
      rw [grab, grab]
      cases lookahead ps [w] with
      | error f => trivial
      | ok l =>
        cases l with
        | nil => exact ih _ _ _ _ _ hl (by exact hk)
        | cons q l =>
          simp only
          cases c.lookup w with
          | error f => trivial
          | ok d =>
            cases d with
            | some d => trivial
            | none => exact ih _ _ _ _ _ hl (by exact hk)

theorem finishOption_like (c : Cmdline) (hne : ∀ d ∈ c.desc, ∀ name, name ≠ [] → reportedKey d name ≠ []) (ps : List StyleParser) (o o' : Opt) (other : List Str)
    (h : Like o o') : Same (fun a b => Like a.1 b.1 ∧ a.2 = b.2) (c.finishOption ps o other) (c.finishOption ps o' other) := by
  unfold finishOption
  rw [← h.key]
  by_cases hk : o.stringKey = []
  · rw [if_pos hk, if_pos hk]; exact ⟨h, rfl⟩
  · rw [if_neg hk, if_neg hk]
    simp only
    cases hl : c.lookup o.stringKey with
    | error f => trivial
    | ok d =>
      cases d with
      | none =>
        simp only
        by_cases hu : c.allowUnregistered = true
        · rw [if_pos hu, if_pos hu]
          refine ⟨⟨?_, .inr hk⟩, rfl⟩
          have := h.same
          simp only [strip, Opt.mk.injEq] at this ⊢
          simp [this]
        · rw [if_neg hu, if_neg hu]; trivial
      | some d =>
        simp only
        rw [← h.value]
        by_cases hm : o.value.length + other.length ≥ d.semantic.minTokens
        · rw [if_pos hm, if_pos hm]
          by_cases hx : o.value ≠ [] ∧ d.semantic.maxTokens = 0
          · rw [if_pos hx, if_pos hx]; trivial
          · rw [if_neg hx, if_neg hx]
            have hkey : d.key o.stringKey ≠ [] := by
              rw [key_eq]
              exact hne d (lookup_denotes.1 hl).mem _ hk
            refine c.grab_like ps _ _ _ _ _ _ ⟨?_, .inr hkey⟩ hkey
            have := h.same
            simp only [strip, Opt.mk.injEq] at this ⊢
            simp [this]
        · rw [if_neg hm, if_neg hm]; trivial

theorem finishAll_like (c : Cmdline) (hne : ∀ d ∈ c.desc, ∀ name, name ≠ [] → reportedKey d name ≠ []) (ps : List StyleParser) (os os' : List Opt)
    (args : List Str) (h : Likes os os') :
    Same (fun a b => Likes a.1 b.1 ∧ a.2 = b.2) (c.finishAll ps os args) (c.finishAll ps os' args) := by
  induction h with
  | nil => rw [finishAll]; exact ⟨.nil, rfl⟩
  | @cons o o' os os' ho t ih =>
    cases t with
    | nil =>
      rw [finishAll, finishAll]
      have := c.finishOption_like hne ps o o' args ho
      revert this
      generalize c.finishOption ps o args = r
      generalize c.finishOption ps o' args = r'
      intro this
      cases r <;> cases r' <;> simp only [Same] at this ⊢
      exact ⟨.cons this.1 .nil, this.2⟩
    | @cons p p' os os' hp t =>
      rw [finishAll.eq_3 c _ args o (p :: os) (by simp), finishAll.eq_3 c _ args o' (p' :: os') (by simp)]
      have := c.finishOption_like hne ps o o' [] ho
      revert this
      generalize c.finishOption ps o [] = r
      generalize c.finishOption ps o' [] = r'
      intro this
      cases r <;> cases r' <;> simp only [Same] at this ⊢
      revert ih
      generalize c.finishAll ps (p :: os) args = q
      generalize c.finishAll ps (p' :: os') args = q'
      intro ih
      cases q <;> cases q' <;> simp only [Same] at ih ⊢
      exact ⟨.cons this.1 ih.1, ih.2⟩

theorem shortLoop_like (c : Cmdline) (tok tok' name adj : Str) (hn : name ≠ []) :
    Same Likes (c.shortLoop tok name adj) (c.shortLoop tok' name adj) := by
  induction adj generalizing name with
  | nil =>
    rw [shortLoop, shortLoop]
    cases c.findShort name with
    | error f => trivial
    | ok d => exact .cons ⟨rfl, .inr hn⟩ .nil
  | cons b adj ih =>
    rw [shortLoop, shortLoop]
    cases c.findShort name with
    | error f => trivial
    | ok d =>
      simp only
      by_cases ht : c.takesNoValue d = true
      · rw [if_pos ht, if_pos ht]
        have := ih ['-', b] (by simp)
        revert this
        generalize c.shortLoop tok ['-', b] adj = q
        generalize c.shortLoop tok' ['-', b] adj = q'
        intro this
        cases q <;> cases q' <;> simp only [Same] at this ⊢
        exact .cons (.refl _) this
      · rw [if_neg ht, if_neg ht]
        exact .cons ⟨rfl, .inr hn⟩ .nil

/-- Finishing a switch. -/
theorem finish_switch (c : Cmdline) (ps : List StyleParser) (opt : Opt) (d : OptionDesc) (rest : List Str) (hk : opt.stringKey ≠ [])
    (hl : c.lookup opt.stringKey = .ok (some d)) (hv : opt.value = []) (hmin : d.semantic.minTokens = 0) :
    c.finishOption ps opt rest = .ok ({ opt with stringKey := d.key opt.stringKey }, rest) := by
  unfold finishOption
  rw [if_neg hk, hl]
  simp only
  rw [if_pos (by rw [hmin]; omega), if_neg (by rintro ⟨h, _⟩; exact h hv), hmin]
  simp [grab]

/-- The first letter of a group of short options, if it is a switch, can be split off. -/
theorem first_group (c : Cmdline) (hs : c.styleParser = none) (hne : ∀ d ∈ c.desc, ∀ name, name ≠ [] → reportedKey d name ≠ [])
    (he : Enabled c Style.allowShort ∧ Enabled c Style.allowDashForShort) (hd : ¬ Enabled c Style.allowLongDisguise) (hst : Enabled c Style.allowSticky)
    (s a : Char) (t : Str) (rest : List Str) (d : OptionDesc) (hsn : s ≠ '-') (ha : a ≠ '-') (hds : DenotesShort c s d) (hdn : Denotes c ['-', s] d)
    (hmin : d.semantic.minTokens = 0) (hmax : d.semantic.maxTokens = 0) (h1 : Unclaimed c ('-' :: s :: a :: t)) (h2 : Unclaimed c ['-', s])
    (h3 : Unclaimed c ('-' :: a :: t)) :
    Same Likes (c.first (('-' :: s :: a :: t) :: rest)) (c.first (['-', s] :: ('-' :: a :: t) :: rest)) := by
  have hsw : ∀ (opt : Opt) rest, opt.stringKey = ['-', s] → opt.value = [] →
      c.finishOption c.parsers opt rest = .ok ({ opt with stringKey := d.key ['-', s] }, rest) := by
    intro opt rest hk hv
    have := c.finish_switch c.parsers opt d rest (by rw [hk]; simp) (by rw [hk]; exact lookup_denotes.2 hdn) hv hmin
    rw [hk] at this
    exact this
  have f1 : c.front ['-', s] = .ok [{ stringKey := ['-', s], originalTokens := [['-', s]] }] := by
    rw [c.front_short he hd s [] hsn h2, shortLoop, c.findShort_denotes s d hds]
  have f2 := c.front_short he hd a t ha h3
  have f3 : c.front ('-' :: s :: a :: t) = match c.shortLoop ('-' :: s :: a :: t) ['-', a] t with
      | .error f => .error f
      | .ok os => .ok ({ stringKey := ['-', s] } :: os) := by
    rw [c.front_short he hd s (a :: t) hsn h1, shortLoop, c.findShort_denotes s d hds]
    simp only
    rw [if_pos]
    · rfl
    · unfold takesNoValue
      simp only [hmax]
      rw [show active c.style Style.allowSticky = true from hst]
      rfl
  have hlike := c.shortLoop_like ('-' :: s :: a :: t) ('-' :: a :: t) ['-', a] t (by simp)
  rw [c.first_cons hs _ _ _ _ f1]
  have e1 : c.finishAll c.parsers [({ stringKey := ['-', s], originalTokens := [['-', s]] } : Opt)] (('-' :: a :: t) :: rest) =
      .ok ([{ stringKey := d.key ['-', s], originalTokens := [['-', s]] }], ('-' :: a :: t) :: rest) := by
    rw [finishAll, hsw _ _ rfl rfl]
  rw [e1]
  simp only
  cases hq : c.shortLoop ('-' :: s :: a :: t) ['-', a] t with
  | error f =>
    rw [hq] at f3 hlike
    cases hq' : c.shortLoop ('-' :: a :: t) ['-', a] t with
    | ok l => rw [hq'] at hlike; exact hlike.elim
    | error f' =>
      rw [hq'] at f2
      have g1 : ∃ f, c.first (('-' :: s :: a :: t) :: rest) = .error f := by
        unfold first
        rw [List.length_cons, loop, c.step_eq hs, f3]
        exact ⟨_, rfl⟩
      have g2 : ∃ f, c.first (('-' :: a :: t) :: rest) = .error f := by
        unfold first
        rw [List.length_cons, loop, c.step_eq hs, f2]
        exact ⟨_, rfl⟩
      obtain ⟨f, g1⟩ := g1
      obtain ⟨f', g2⟩ := g2
      rw [g1, g2]
      trivial
  | ok l =>
    rw [hq] at f3 hlike
    cases hq' : c.shortLoop ('-' :: a :: t) ['-', a] t with
    | error l => rw [hq'] at hlike; exact hlike.elim
    | ok l' =>
      rw [hq'] at f2 hlike
      simp only [Same] at hlike
      cases hlike with
      | nil => exact absurd rfl (c.shortLoop_ne _ _ _ _ hq)
      | @cons o o' l l' ho hl =>
        rw [c.first_cons hs _ _ _ _ f2, c.first_cons hs _ _ _ _ f3, finishAll.eq_3 c _ rest _ (o :: l) (by simp), hsw _ _ rfl rfl]
        simp only
        have := c.finishAll_like hne c.parsers (o :: l) (o' :: l') rest (.cons ho hl)
        revert this
        generalize c.finishAll c.parsers (o :: l) rest = q
        generalize c.finishAll c.parsers (o' :: l') rest = q'
        intro this
        cases q <;> cases q' <;> simp only [Same] at this ⊢
        rw [this.2]
        generalize c.first _ = r
        cases r with
        | error f => trivial
        | ok more =>
          simp only [List.cons_append, List.nil_append]
          refine .cons ⟨rfl, .inr ?_⟩ (this.1.append (.refl _))
          simp only
          rw [key_eq]
          exact hne d hdn.mem _ (by simp)

end Cmdline
end PO
