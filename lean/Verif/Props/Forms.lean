import Verif.Spec.Forms
import Verif.Props.Flags
import Mathlib.Data.List.Forall2
/-
C151: a flag of the style matters only to tokens of its form.
-/
namespace PO
open Spec

namespace Forms

/-- The same exception, or the two differ in the prefix alone, and this is `a` in the first and `b` in the second. -/
def LikeF (a b : Nat) (f g : Fail) : Prop :=
  f = g ∨ ∃ e e', f = .opt e ∧ g = .opt e' ∧ e.cls = e'.cls ∧ e.subst = e'.subst ∧ e.style = a ∧ e'.style = b

def Like {α : Type} (c c' : Cmdline) : Except Fail α → Except Fail α → Prop
  | .ok x, .ok y => x = y
  | .error f, .error g => LikeF c.canonicalPrefix c'.canonicalPrefix f g
  | _, _ => False

theorem LikeF.refl (a b : Nat) (f : Fail) : LikeF a b f f := .inl rfl

theorem LikeF.addContext {a b : Nat} {f g : Fail} (h : LikeF a b f g) (n t : Str) (s s' : Nat) :
    LikeF s s' (f.addContext n t s) (g.addContext n t s') := by
  have key : ∀ e e' : OptErr, e.cls = e'.cls → e.subst = e'.subst →
      LikeF s s' ((Fail.opt e).addContext n t s) ((Fail.opt e').addContext n t s') := by
    intro e e' h1 h2
    refine .inr ⟨_, _, rfl, rfl, ?_, ?_, rfl, rfl⟩
    · unfold OptErr.addContext OptErr.setSubst
      dsimp only
      split <;> split <;> exact h1
    · unfold OptErr.addContext OptErr.setSubst
      dsimp only
      rw [h1]
      split <;> simp only [h2]
  rcases h with rfl | ⟨e, e', rfl, rfl, h1, h2, -, -⟩
  · cases f
    case opt e => exact key e e rfl rfl
    all_goals exact .inl rfl
  · exact key e e' h1 h2

theorem Like.refl {α : Type} {c c' : Cmdline} (x : Except Fail α) : Like c c' x x := by
  cases x with
  | error f => exact .inl rfl
  | ok a => exact rfl

/-- What two parsers that look up names alike have in common. -/
structure Pair (c c' : Cmdline) : Prop where
  lookup : ∀ n, c.lookup n = c'.lookup n
  unreg : c.allowUnregistered = c'.allowUnregistered
  setCase : c.setCase = c'.setCase
  positional : c.positional = c'.positional

/-- On the tokens the two style parsers do the same, and leave what they do not read. -/
def Does (c c' : Cmdline) (T : List Str) (p p' : StyleParser) : Prop :=
  ∀ args, (∀ t ∈ args, t ∈ T) → Like c c' (p args) (p' args) ∧ ∀ os left, p args = .ok (os, left) → left <:+ args

/-- A style parser that reads nothing. -/
def skip : StyleParser
  | [] => .error (.ub .emptyArgs)
  | args => .ok ([], args)

variable {c c' : Cmdline} {T : List Str}

theorem within {l l' : List Str} (h : l <:+ l') (h' : ∀ t ∈ l', t ∈ T) : ∀ t ∈ l, t ∈ T := fun t ht => h' t (h.subset ht)

theorem lookahead_same {ps ps' : List StyleParser} (h : List.Forall₂ (Does c c' T) ps ps') (args : List Str) (ha : ∀ t ∈ args, t ∈ T) :
    Like c c' (Cmdline.lookahead ps args) (Cmdline.lookahead ps' args) := by
  induction h generalizing args with
  | nil => exact rfl
  | @cons p p' ps ps' hp hps ih =>
    rw [Cmdline.lookahead, Cmdline.lookahead]
    obtain ⟨h1, h2⟩ := hp args ha
    cases e1 : p args <;> cases e2 : p' args <;> rw [e1, e2] at h1
    · exact h1
    · cases h1
    · cases h1
    · rename_i r r'
      cases (show r = r' from h1)
      obtain ⟨os, left⟩ := r
      dsimp only
      by_cases h0 : os = []
      · rw [if_pos h0, if_pos h0]
        exact ih left (within (h2 _ _ e1) ha)
      · rw [if_neg h0, if_neg h0]
        exact rfl

theorem grab_same (hc : Pair c c') {ps ps' : List StyleParser} (h : List.Forall₂ (Does c c' T) ps ps') (n : Nat) (other : List Str)
    (ha : ∀ t ∈ other, t ∈ T) (o : Opt) (orig : Str) :
    Like c c' (c.grab ps n other o orig) (c'.grab ps' n other o orig) ∧ ∀ o' left, c.grab ps n other o orig = .ok (o', left) → left <:+ other := by
  induction n generalizing other o orig with
  | zero =>
    rw [Cmdline.grab, Cmdline.grab]
    refine ⟨rfl, fun o' left he => ?_⟩
    injection he with he
    injection he with _ he
    rw [he]
    exact List.suffix_rfl
  | succ n ih =>
    cases other with
    | nil =>
      rw [Cmdline.grab, Cmdline.grab]
      refine ⟨rfl, fun o' left he => ?_⟩
      injection he with he
      injection he with _ he
      rw [← he]
      exact List.suffix_rfl
    | cons t ts =>
      rw [Cmdline.grab, Cmdline.grab]
      have hl := lookahead_same h [t] (fun x hx => ha x (by rw [List.mem_singleton] at hx; rw [hx]; simp))
      have hts : ∀ x ∈ ts, x ∈ T := fun x hx => ha x (List.mem_cons_of_mem _ hx)
      have hi := fun o orig => ih ts hts o orig
      cases e1 : Cmdline.lookahead ps [t] <;> cases e2 : Cmdline.lookahead ps' [t] <;> rw [e1, e2] at hl
      · exact ⟨LikeF.addContext hl _ _ _ _, fun _ _ he => by cases he⟩
      · cases hl
      · cases hl
      · rename_i r r'
        cases (show r = r' from hl)
        cases r with
        | nil => exact ⟨(hi _ _).1, fun o' left he => ((hi _ _).2 o' left he).trans (List.suffix_cons _ _)⟩
        | cons x xs =>
          dsimp only
          rw [hc.lookup]
          cases c'.lookup t with
          | error f => exact ⟨LikeF.addContext (.refl 0 0 f) _ _ _ _, fun _ _ he => by cases he⟩
          | ok d =>
            cases d with
            | none => exact ⟨(hi _ _).1, fun o' left he => ((hi _ _).2 o' left he).trans (List.suffix_cons _ _)⟩
            | some d => exact ⟨LikeF.addContext (.refl 0 0 _) _ _ _ _, fun _ _ he => by cases he⟩

theorem finishOption_same (hc : Pair c c') {ps ps' : List StyleParser} (h : List.Forall₂ (Does c c' T) ps ps') (o : Opt) (other : List Str)
    (ha : ∀ t ∈ other, t ∈ T) :
    Like c c' (c.finishOption ps o other) (c'.finishOption ps' o other) ∧ ∀ o' left, c.finishOption ps o other = .ok (o', left) → left <:+ other := by
  have stay : ∀ x : Opt, ∀ o' left, (.ok (x, other) : Except Fail (Opt × List Str)) = .ok (o', left) → left <:+ other := by
    intro x o' left he
    injection he with he
    injection he with _ he
    rw [← he]
    exact List.suffix_rfl
  unfold Cmdline.finishOption
  by_cases hk : o.stringKey = []
  · rw [if_pos hk, if_pos hk]
    exact ⟨rfl, stay _⟩
  · rw [if_neg hk, if_neg hk]
    dsimp only
    rw [hc.lookup, hc.unreg]
    cases c'.lookup o.stringKey with
    | error f => exact ⟨LikeF.addContext (.refl 0 0 f) _ _ _ _, fun _ _ he => by cases he⟩
    | ok d =>
      cases d with
      | none =>
        dsimp only
        cases c'.allowUnregistered with
        | true => exact ⟨rfl, stay _⟩
        | false => exact ⟨LikeF.addContext (.refl 0 0 _) _ _ _ _, fun _ _ he => by cases he⟩
      | some d =>
        dsimp only
        by_cases h1 : o.value.length + other.length ≥ d.semantic.minTokens
        · rw [if_pos h1, if_pos h1]
          by_cases h2 : o.value ≠ [] ∧ d.semantic.maxTokens = 0
          · rw [if_pos h2, if_pos h2]
            exact ⟨LikeF.addContext (.refl 0 0 _) _ _ _ _, fun _ _ he => by cases he⟩
          · rw [if_neg h2, if_neg h2]
            exact grab_same hc h _ _ ha _ _
        · rw [if_neg h1, if_neg h1]
          exact ⟨LikeF.addContext (.refl 0 0 _) _ _ _ _, fun _ _ he => by cases he⟩

theorem finishAll_same (hc : Pair c c') {ps ps' : List StyleParser} (h : List.Forall₂ (Does c c' T) ps ps') (os : List Opt) (args : List Str)
    (ha : ∀ t ∈ args, t ∈ T) :
    Like c c' (c.finishAll ps os args) (c'.finishAll ps' os args) ∧ ∀ os' left, c.finishAll ps os args = .ok (os', left) → left <:+ args := by
  induction os with
  | nil =>
    rw [Cmdline.finishAll, Cmdline.finishAll]
    refine ⟨rfl, fun o' left he => ?_⟩
    injection he with he
    injection he with _ he
    rw [← he]
    exact List.suffix_rfl
  | cons o os ih =>
    cases os with
    | nil =>
      rw [Cmdline.finishAll, Cmdline.finishAll]
      obtain ⟨h1, h2⟩ := finishOption_same hc h o args ha
      cases e1 : c.finishOption ps o args <;> cases e2 : c'.finishOption ps' o args <;> rw [e1, e2] at h1
      · exact ⟨h1, fun _ _ he => by cases he⟩
      · cases h1
      · cases h1
      · rename_i r r'
        cases (show r = r' from h1)
        refine ⟨rfl, fun o' left he => ?_⟩
        injection he with he
        injection he with _ he
        rw [← he]
        exact h2 _ _ e1
    | cons o2 os =>
      rw [Cmdline.finishAll.eq_3 c _ args o (o2 :: os) (by simp), Cmdline.finishAll.eq_3 c' _ args o (o2 :: os) (by simp)]
      obtain ⟨h1, -⟩ := finishOption_same hc h o [] (fun t ht => by cases ht)
      obtain ⟨h3, h4⟩ := ih
      cases e1 : c.finishOption ps o [] <;> cases e2 : c'.finishOption ps' o [] <;> rw [e1, e2] at h1
      · exact ⟨h1, fun _ _ he => by cases he⟩
      · cases h1
      · cases h1
      · rename_i r r'
        cases (show r = r' from h1)
        dsimp only
        cases e3 : c.finishAll ps (o2 :: os) args <;> cases e4 : c'.finishAll ps' (o2 :: os) args <;> rw [e3, e4] at h3
        · exact ⟨h3, fun _ _ he => by cases he⟩
        · cases h3
        · cases h3
        · rename_i q q'
          cases (show q = q' from h3)
          refine ⟨rfl, fun o' left he => ?_⟩
          injection he with he
          injection he with _ he
          rw [← he]
          exact h4 _ _ e3

theorem tryParsers_same (hc : Pair c c') {all all' ps ps' : List StyleParser} (ht : List.Forall₂ (Does c c' T) all all')
    (h : List.Forall₂ (Does c c' T) ps ps') (args : List Str) (ha : ∀ t ∈ args, t ∈ T) :
    Like c c' (c.tryParsers all ps args) (c'.tryParsers all' ps' args) ∧
    ∀ os left, c.tryParsers all ps args = .ok (os, left) → left <:+ args := by
  induction h generalizing args with
  | nil =>
    cases args with
    | nil =>
      rw [Cmdline.tryParsers, Cmdline.tryParsers]
      exact ⟨.refl _, fun _ _ he => by cases he⟩
    | cons a args =>
      rw [Cmdline.tryParsers, Cmdline.tryParsers]
      refine ⟨rfl, fun o' left he => ?_⟩
      injection he with he
      injection he with _ he
      rw [← he]
      exact List.suffix_cons _ _
  | @cons p p' ps ps' hp hps ih =>
    rw [Cmdline.tryParsers, Cmdline.tryParsers]
    obtain ⟨h1, h2⟩ := hp args ha
    cases e1 : p args <;> cases e2 : p' args <;> rw [e1, e2] at h1
    · exact ⟨h1, fun _ _ he => by cases he⟩
    · cases h1
    · cases h1
    · rename_i r r'
      cases (show r = r' from h1)
      obtain ⟨os, left⟩ := r
      have hs := h2 _ _ e1
      dsimp only
      obtain ⟨h3, h4⟩ := finishAll_same hc ht os left (within hs ha)
      cases e3 : c.finishAll all os left <;> cases e4 : c'.finishAll all' os left <;> rw [e3, e4] at h3
      · exact ⟨h3, fun _ _ he => by cases he⟩
      · cases h3
      · cases h3
      · rename_i q q'
        cases (show q = q' from h3)
        obtain ⟨os', left'⟩ := q
        have hs' := (h4 _ _ e3).trans hs
        dsimp only
        by_cases hl : left'.length ≠ args.length
        · rw [if_pos hl, if_pos hl]
          refine ⟨rfl, fun o' l he => ?_⟩
          injection he with he
          injection he with _ he
          rw [← he]
          exact hs'
        · rw [if_neg hl, if_neg hl]
          obtain ⟨h5, h6⟩ := ih left' (within hs' ha)
          cases e5 : c.tryParsers all ps left' <;> cases e6 : c'.tryParsers all' ps' left' <;> rw [e5, e6] at h5
          · exact ⟨h5, fun _ _ he => by cases he⟩
          · cases h5
          · cases h5
          · rename_i w w'
            cases (show w = w' from h5)
            refine ⟨rfl, fun o' l he => ?_⟩
            injection he with he
            injection he with _ he
            rw [← he]
            exact (h6 _ _ e5).trans hs'

/-! ### A place for every style parser -/

/-- The style parsers, with one that reads nothing in place of each that the style does not ask for. -/
def slots (c : Cmdline) : List StyleParser :=
  [match c.additional with | some f => Cmdline.parseAdditional f | none => skip,
    if active c.style Style.allowLong then c.parseLong else skip,
    if active c.style Style.allowLongDisguise then c.parseDisguised else skip,
    if active c.style Style.allowShort && active c.style Style.allowDashForShort then c.parseShort else skip,
    if active c.style Style.allowShort && active c.style Style.allowSlashForShort then Cmdline.parseDos else skip,
    Cmdline.parseTerminator]

/-- If it reads nothing, it leaves the tokens alone. -/
def Keeps (p : StyleParser) : Prop := ∀ args left, args ≠ [] → p args = .ok ([], left) → left = args

/-- The first list is the second without some that read nothing. -/
inductive Thinned : List StyleParser → List StyleParser → Prop
  | nil : Thinned [] []
  | keep {ps qs} (p : StyleParser) : Keeps p → Thinned ps qs → Thinned (p :: ps) (p :: qs)
  | last (p : StyleParser) : Thinned [p] [p]
  | drop {ps qs} : Thinned ps qs → Thinned ps (skip :: qs)

theorem skip_ne {args : List Str} (h : args ≠ []) : skip args = .ok ([], args) := by
  cases args with
  | nil => exact absurd rfl h
  | cons a l => rfl

theorem lookahead_thinned {ps qs : List StyleParser} (h : Thinned ps qs) (args : List Str) (h0 : args ≠ []) :
    Cmdline.lookahead ps args = Cmdline.lookahead qs args := by
  induction h with
  | nil => rfl
  | last p => rfl
  | keep p hk _ ih =>
    rw [Cmdline.lookahead, Cmdline.lookahead]
    cases e : p args with
    | error f => rfl
    | ok r =>
      obtain ⟨os, left⟩ := r
      dsimp only
      by_cases h1 : os = []
      · rw [if_pos h1, if_pos h1]
        rw [h1] at e
        rw [hk args left h0 e, ih]
      · rw [if_neg h1, if_neg h1]
  | drop _ ih => rw [Cmdline.lookahead, skip_ne h0]; exact ih

theorem grab_congr {ps qs : List StyleParser} (h : ∀ t, Cmdline.lookahead ps [t] = Cmdline.lookahead qs [t]) (n : Nat) (other : List Str)
    (o : Opt) (orig : Str) : c.grab ps n other o orig = c.grab qs n other o orig := by
  induction n generalizing other o orig with
  | zero => rw [Cmdline.grab, Cmdline.grab]
  | succ n ih =>
    cases other with
    | nil => rw [Cmdline.grab, Cmdline.grab]
    | cons t ts =>
      rw [Cmdline.grab, Cmdline.grab, h t]
      simp only [ih]

theorem finishOption_congr {ps qs : List StyleParser} (h : ∀ t, Cmdline.lookahead ps [t] = Cmdline.lookahead qs [t]) (o : Opt) (other : List Str) :
    c.finishOption ps o other = c.finishOption qs o other := by
  unfold Cmdline.finishOption
  simp only [grab_congr h]

theorem finishAll_congr {ps qs : List StyleParser} (h : ∀ t, Cmdline.lookahead ps [t] = Cmdline.lookahead qs [t]) (os : List Opt) (args : List Str) :
    c.finishAll ps os args = c.finishAll qs os args := by
  induction os with
  | nil => rw [Cmdline.finishAll, Cmdline.finishAll]
  | cons o os ih =>
    cases os with
    | nil => rw [Cmdline.finishAll, Cmdline.finishAll, finishOption_congr h]
    | cons o2 os =>
      rw [Cmdline.finishAll.eq_3 c _ args o (o2 :: os) (by simp), Cmdline.finishAll.eq_3 c _ args o (o2 :: os) (by simp), finishOption_congr h, ih]

theorem tryParsers_thinned {all all' : List StyleParser} (ht : Thinned all all') {ps qs : List StyleParser} (h : Thinned ps qs) (args : List Str)
    (h0 : args ≠ []) : c.tryParsers all ps args = c.tryParsers all' qs args := by
  have hl : ∀ t, Cmdline.lookahead all [t] = Cmdline.lookahead all' [t] := fun t => lookahead_thinned ht [t] (by simp)
  have hone : ∀ (p : StyleParser) (ps qs : List StyleParser) (args : List Str), args ≠ [] →
      (∀ a, a ≠ [] → c.tryParsers all ps a = c.tryParsers all' qs a) →
      c.tryParsers all (p :: ps) args = c.tryParsers all' (p :: qs) args := by
    intro p ps qs args h0 hi
    rw [Cmdline.tryParsers, Cmdline.tryParsers]
    cases p args with
    | error f => rfl
    | ok r =>
      obtain ⟨os, left⟩ := r
      dsimp only
      rw [finishAll_congr hl]
      cases c.finishAll all' os left with
      | error f => rfl
      | ok r =>
        obtain ⟨os', left'⟩ := r
        dsimp only
        by_cases h1 : left'.length ≠ args.length
        · rw [if_pos h1, if_pos h1]
        · rw [if_neg h1, if_neg h1, hi left']
          intro h2
          rw [h2] at h1
          refine h1 fun h3 => h0 (List.eq_nil_of_length_eq_zero h3.symm)
  induction h generalizing args with
  | nil =>
    cases args with
    | nil => exact absurd rfl h0
    | cons a l => rfl
  | last p =>
    refine hone p [] [] args h0 fun a ha => ?_
    cases a with
    | nil => exact absurd rfl ha
    | cons a l => rfl
  | keep p _ _ ih => exact hone p _ _ args h0 ih
  | drop _ ih =>
    rw [ih args h0, Cmdline.tryParsers, skip_ne h0]
    dsimp only
    rw [Cmdline.finishAll]
    simp only [ne_eq, not_true_eq_false, if_false]
    cases c.tryParsers all' _ args with
    | error f => rfl
    | ok r => rfl

theorem keeps_additional (f : Str → Str × Str) : Keeps (Cmdline.parseAdditional f) := by
  intro args left h0 h
  cases args with
  | nil => exact absurd rfl h0
  | cons t r =>
    rw [Cmdline.parseAdditional] at h
    split at h
    · injection h with h; injection h with _ h; exact h.symm
    · injection h with h; injection h with h; cases h

theorem keeps_long : Keeps c.parseLong := by
  intro args left h0 h
  cases args with
  | nil => exact absurd rfl h0
  | cons t r =>
    rw [Cmdline.parseLong] at h
    split at h
    · split at h
      · dsimp only at h
        split at h
        · cases h
        · injection h with h; injection h with h; cases h
      · injection h with h; injection h with h; cases h
    · injection h with h; injection h with _ h; exact h.symm

theorem keeps_short : Keeps c.parseShort := by
  intro args left h0 h
  cases args with
  | nil => exact absurd rfl h0
  | cons t r =>
    rw [Cmdline.parseShort] at h
    split at h
    · exfalso
      cases e : c.shortLoop t (substr t 0 2) (t.drop 2) with
      | error f => rw [e] at h; cases h
      | ok os =>
        rw [e] at h
        injection h with h
        injection h with h _
        rw [h] at e
        revert e
        generalize substr t 0 2 = n
        intro e
        cases h4 : t.drop 2 with
        | nil =>
          rw [h4, Cmdline.shortLoop] at e
          split at e <;> cases e
        | cons a adj =>
          rw [h4, Cmdline.shortLoop] at e
          split at e
          · cases e
          · split at e
            · split at e <;> cases e
            · cases e
    · injection h with h; injection h with _ h; exact h.symm

theorem keeps_disguised : Keeps c.parseDisguised := by
  intro args left h0 h
  cases args with
  | nil => exact absurd rfl h0
  | cons t r =>
    rw [Cmdline.parseDisguised] at h
    split at h
    · rename_i hc
      split at h
      · cases h
      · split at h
        · cases h
        · rename_i w hw
          exfalso
          injection h with h
          rw [h] at hw
          have hl : (Cmdline.undisguise t).length ≥ 3 ∧ (Cmdline.undisguise t)[0]? = some '-' ∧ (Cmdline.undisguise t)[1]? = some '-' := by
            obtain ⟨h1, h2⟩ := hc
            match t, h1, h2 with
            | a :: b :: u, h1, h2 =>
              rcases h2 with ⟨h2, -⟩ | ⟨-, h2⟩
              · have h2 : a = '-' := by simpa using h2
                subst h2
                exact ⟨by simp [Cmdline.undisguise], rfl, rfl⟩
              · have h2 : a = '/' := by simpa using h2
                subst h2
                exact ⟨by simp [Cmdline.undisguise], rfl, rfl⟩
          rw [Cmdline.parseLong, if_pos hl] at hw
          split at hw
          · dsimp only at hw
            split at hw
            · cases hw
            · injection hw with hw; injection hw with hw; cases hw
          · injection hw with hw; injection hw with hw; cases hw
      · injection h with h; injection h with _ h; exact h.symm
    · injection h with h; injection h with _ h; exact h.symm

theorem keeps_dos : Keeps Cmdline.parseDos := by
  intro args left h0 h
  cases args with
  | nil => exact absurd rfl h0
  | cons t r =>
    rw [Cmdline.parseDos] at h
    split at h
    · dsimp only at h
      injection h with h; injection h with h; cases h
    · injection h with h; injection h with _ h; exact h.symm

theorem thin (b : Bool) (p : StyleParser) (hp : Keeps p) {ps qs : List StyleParser} (h : Thinned ps qs) :
    Thinned ((if b = true then [p] else []) ++ ps) ((if b = true then p else skip) :: qs) := by
  cases b with
  | true => exact .keep p hp h
  | false => exact .drop h

theorem thinned (hs : c.styleParser = none) : Thinned c.parsers (slots c) := by
  unfold Cmdline.parsers slots
  rw [hs]
  simp only [List.nil_append, List.append_assoc]
  have h1 := thin (active c.style Style.allowShort && active c.style Style.allowSlashForShort) _ keeps_dos (.last Cmdline.parseTerminator)
  have h2 := thin (active c.style Style.allowShort && active c.style Style.allowDashForShort) _ (keeps_short (c := c)) h1
  have h3 := thin (active c.style Style.allowLongDisguise) _ (keeps_disguised (c := c)) h2
  have h4 := thin (active c.style Style.allowLong) _ (keeps_long (c := c)) h3
  cases c.additional with
  | none => exact .drop h4
  | some f => exact .keep _ (keeps_additional f) h4

theorem step_slots (hs : c.styleParser = none) (a : Str) (args : List Str) : c.step (a :: args) = c.tryParsers (slots c) (slots c) (a :: args) :=
  tryParsers_thinned (thinned hs) (thinned hs) _ (by simp)

/-! ### The style parsers of two styles -/

theorem long_iff (tok : Str) : (tok.length ≥ 3 ∧ tok[0]? = some '-' ∧ tok[1]? = some '-') ↔ Long tok := by
  unfold Long
  match tok with
  | [] => simp
  | [a] => simp
  | [a, b] => simp
  | a :: b :: x :: r => simp

theorem dash_iff (tok : Str) : (tok.length ≥ 2 ∧ tok[0]? = some '-' ∧ tok[1]? ≠ some '-') ↔ Dash tok := by
  unfold Dash
  match tok with
  | [] => simp
  | [a] => simp
  | a :: b :: r => simp

theorem slash_iff (tok : Str) : (tok.length ≥ 2 ∧ tok[0]? = some '/') ↔ Slash tok := by
  unfold Slash
  match tok with
  | [] => simp
  | [a] => simp
  | a :: b :: r => simp

theorem disguised_iff (tok : Str) (b : Bool) : (tok.length ≥ 2 ∧ ((tok[0]? = some '-' ∧ tok[1]? ≠ some '-') ∨ (b = true ∧ tok[0]? = some '/'))) ↔
    (Dash tok ∨ (b = true ∧ Slash tok)) := by
  rw [← dash_iff, ← slash_iff]
  constructor
  · rintro ⟨h, h1 | ⟨h1, h2⟩⟩
    · exact .inl ⟨h, h1⟩
    · exact .inr ⟨h1, h, h2⟩
  · rintro (⟨h, h1⟩ | ⟨h1, h, h2⟩)
    · exact ⟨h, .inl h1⟩
    · exact ⟨h, .inr ⟨h1, h2⟩⟩

theorem skip_suffix (args : List Str) (os : List Opt) (left : List Str) (h : skip args = .ok (os, left)) : left <:+ args := by
  cases args with
  | nil => cases h
  | cons t r => injection h with h; injection h with _ h; rw [← h]; exact List.suffix_rfl

theorem long_suffix (args : List Str) (os : List Opt) (left : List Str) (h : c.parseLong args = .ok (os, left)) : left <:+ args := by
  cases args with
  | nil => cases h
  | cons t r =>
    rw [Cmdline.parseLong] at h
    split at h
    · split at h
      · dsimp only at h
        split at h
        · cases h
        · injection h with h; injection h with _ h; rw [← h]; exact List.suffix_cons _ _
      · injection h with h; injection h with _ h; rw [← h]; exact List.suffix_cons _ _
    · injection h with h; injection h with _ h; rw [← h]; exact List.suffix_rfl

theorem long_left (t : Str) (r : List Str) (os : List Opt) (left : List Str) (ht : Long t) (h : c.parseLong (t :: r) = .ok (os, left)) : left = r := by
  rw [Cmdline.parseLong, if_pos ((long_iff t).2 ht)] at h
  split at h
  · dsimp only at h
    split at h
    · cases h
    · injection h with h; injection h with _ h; exact h.symm
  · injection h with h; injection h with _ h; exact h.symm

theorem undisguise_long {t : Str} (h : Dash t ∨ Slash t) : Long (Cmdline.undisguise t) := by
  rcases h with ⟨a, r, rfl, -⟩ | ⟨a, r, rfl⟩
  · exact ⟨a, r, rfl⟩
  · exact ⟨a, r, rfl⟩

theorem disguised_suffix (args : List Str) (os : List Opt) (left : List Str) (h : c.parseDisguised args = .ok (os, left)) : left <:+ args := by
  cases args with
  | nil => cases h
  | cons t r =>
    rw [Cmdline.parseDisguised] at h
    split at h
    · rename_i hc
      rw [disguised_iff] at hc
      split at h
      · cases h
      · split at h
        · cases h
        · rename_i w hw
          injection h with h
          rw [h] at hw
          rw [long_left _ _ _ _ (undisguise_long (hc.imp id And.right)) hw]
          exact List.suffix_cons _ _
      · injection h with h; injection h with _ h; rw [← h]; exact List.suffix_rfl
    · injection h with h; injection h with _ h; rw [← h]; exact List.suffix_rfl

theorem short_suffix (args : List Str) (os : List Opt) (left : List Str) (h : c.parseShort args = .ok (os, left)) : left <:+ args := by
  cases args with
  | nil => cases h
  | cons t r =>
    rw [Cmdline.parseShort] at h
    split at h
    · split at h
      · cases h
      · injection h with h; injection h with _ h; rw [← h]; exact List.suffix_cons _ _
    · injection h with h; injection h with _ h; rw [← h]; exact List.suffix_rfl

theorem dos_suffix (args : List Str) (os : List Opt) (left : List Str) (h : Cmdline.parseDos args = .ok (os, left)) : left <:+ args := by
  cases args with
  | nil => cases h
  | cons t r =>
    rw [Cmdline.parseDos] at h
    split at h
    · dsimp only at h
      injection h with h; injection h with _ h; rw [← h]; exact List.suffix_cons _ _
    · injection h with h; injection h with _ h; rw [← h]; exact List.suffix_rfl

theorem additional_suffix (f : Str → Str × Str) (args : List Str) (os : List Opt) (left : List Str)
    (h : Cmdline.parseAdditional f args = .ok (os, left)) : left <:+ args := by
  cases args with
  | nil => cases h
  | cons t r =>
    rw [Cmdline.parseAdditional] at h
    split at h
    · injection h with h; injection h with _ h; rw [← h]; exact List.suffix_rfl
    · injection h with h; injection h with _ h; rw [← h]; exact List.suffix_cons _ _

theorem terminator_suffix (args : List Str) (os : List Opt) (left : List Str) (h : Cmdline.parseTerminator args = .ok (os, left)) :
    left <:+ args := by
  cases args with
  | nil => cases h
  | cons t r =>
    rw [Cmdline.parseTerminator] at h
    split at h
    · injection h with h; injection h with _ h; rw [← h]; exact List.nil_suffix
    · injection h with h; injection h with _ h; rw [← h]; exact List.suffix_rfl

theorem does_refl (p : StyleParser) (hp : ∀ args os left, p args = .ok (os, left) → left <:+ args) : Does c c' T p p :=
  fun args _ => ⟨.refl _, fun os left => hp args os left⟩

/-- Two parsers that differ only in flags that are about none of the tokens. -/
structure Near (T : List Str) (c c' : Cmdline) : Prop extends Pair c c' where
  desc : c.desc = c'.desc
  flag : ∀ f ∈ flags, (∃ t ∈ T, About f t) → active c.style f = active c'.style f
  additional : c.additional = c'.additional
  sicase : active c.style Style.shortCaseInsensitive = active c'.style Style.shortCaseInsensitive

theorem long_same (t : Str) (r : List Str) : Like c c' (c.parseLong (t :: r)) (c'.parseLong (t :: r)) := by
  rw [Cmdline.parseLong, Cmdline.parseLong]
  split
  · split
    · dsimp only
      split
      · exact .inr ⟨_, _, rfl, rfl, rfl, rfl, rfl, rfl⟩
      · exact rfl
    · exact rfl
  · exact rfl

theorem long_does (h : Near T c c') :
    Does c c' T (if active c.style Style.allowLong then c.parseLong else skip) (if active c'.style Style.allowLong then c'.parseLong else skip) := by
  intro args ha
  refine ⟨?_, fun os left => ?_⟩
  · cases args with
    | nil => split <;> split <;> exact .refl _
    | cons t r =>
      by_cases ht : Long t
      · rw [h.flag Style.allowLong (by decide) ⟨t, ha t (by simp), .inl ⟨rfl, ht⟩⟩]
        split
        · exact long_same t r
        · exact .refl _
      · have : ∀ (c : Cmdline), (if active c.style Style.allowLong = true then c.parseLong else skip) (t :: r) = .ok ([], t :: r) := by
          intro c
          split
          · rw [Cmdline.parseLong, if_neg (by rw [long_iff]; exact ht)]
          · rfl
        rw [this, this]
        exact rfl
  · split
    · exact long_suffix args os left
    · exact skip_suffix args os left

theorem disguised_does (h : Near T c c') :
    Does c c' T (if active c.style Style.allowLongDisguise then c.parseDisguised else skip)
      (if active c'.style Style.allowLongDisguise then c'.parseDisguised else skip) := by
  intro args ha
  refine ⟨?_, fun os left => ?_⟩
  · cases args with
    | nil => split <;> split <;> exact .refl _
    | cons t r =>
      by_cases ht : Dash t ∨ Slash t
      · rw [h.flag Style.allowLongDisguise (by decide) ⟨t, ha t (by simp), .inr (.inr (.inr (.inr (.inr (.inl ⟨rfl, ht⟩)))))⟩]
        split
        · have he : (Dash t ∨ (active c.style Style.allowSlashForShort = true ∧ Slash t)) ↔
              (Dash t ∨ (active c'.style Style.allowSlashForShort = true ∧ Slash t)) := by
            refine or_congr Iff.rfl (and_congr_left fun hs => ?_)
            rw [h.flag Style.allowSlashForShort (by decide) ⟨t, ha t (by simp), .inr (.inr (.inr (.inl ⟨rfl, hs⟩)))⟩]
          rw [Cmdline.parseDisguised, Cmdline.parseDisguised]
          by_cases hg : Dash t ∨ (active c.style Style.allowSlashForShort = true ∧ Slash t)
          · rw [if_pos ((disguised_iff _ _).2 hg), if_pos ((disguised_iff _ _).2 (he.1 hg)), h.lookup]
            cases c'.lookup (Cmdline.disguisedName t) with
            | error f => exact LikeF.addContext (.refl 0 0 f) _ _ _ _
            | ok d =>
              cases d with
              | none => exact rfl
              | some d =>
                dsimp only
                have hl := long_same (c := c) (c' := c') (Cmdline.undisguise t) r
                cases e1 : c.parseLong (Cmdline.undisguise t :: r) <;> cases e2 : c'.parseLong (Cmdline.undisguise t :: r) <;> rw [e1, e2] at hl
                · exact LikeF.addContext hl _ _ _ _
                · cases hl
                · cases hl
                · exact hl
          · rw [if_neg (by rw [disguised_iff]; exact hg), if_neg (by rw [disguised_iff, ← he]; exact hg)]
            exact rfl
        · exact .refl _
      · have : ∀ (c : Cmdline), (if active c.style Style.allowLongDisguise = true then c.parseDisguised else skip) (t :: r) = .ok ([], t :: r) := by
          intro c
          split
          · rw [Cmdline.parseDisguised, if_neg (by rw [disguised_iff]; exact fun hd => ht (hd.imp id And.right))]
          · rfl
        rw [this, this]
        exact rfl
  · split
    · exact disguised_suffix args os left
    · exact skip_suffix args os left

theorem shortLoop_same (hs : active c.style Style.allowSticky = active c'.style Style.allowSticky)
    (hi : active c.style Style.shortCaseInsensitive = active c'.style Style.shortCaseInsensitive) (hd : c.desc = c'.desc) (tok name adj : Str) :
    Like c c' (c.shortLoop tok name adj) (c'.shortLoop tok name adj) := by
  have hf : ∀ n, Like c c' (c.findShort n) (c'.findShort n) := by
    intro n
    unfold Cmdline.findShort
    rw [hi, hd]
    cases findNothrow c'.desc n false false (active c'.style Style.shortCaseInsensitive) with
    | error f => exact LikeF.addContext (.refl 0 0 f) _ _ _ _
    | ok d => exact rfl
  induction adj generalizing name with
  | nil =>
    rw [Cmdline.shortLoop, Cmdline.shortLoop]
    have h1 := hf name
    cases e1 : c.findShort name <;> cases e2 : c'.findShort name <;> rw [e1, e2] at h1
    · exact h1
    · cases h1
    · cases h1
    · exact rfl
  | cons a adj ih =>
    rw [Cmdline.shortLoop, Cmdline.shortLoop]
    have h1 := hf name
    cases e1 : c.findShort name <;> cases e2 : c'.findShort name <;> rw [e1, e2] at h1
    · exact h1
    · cases h1
    · cases h1
    · rename_i d d'
      cases (show d = d' from h1)
      dsimp only
      have ht : c.takesNoValue d = c'.takesNoValue d := by
        unfold Cmdline.takesNoValue
        rw [hs]
      rw [ht]
      split
      · have h2 := ih ['-', a]
        cases e3 : c.shortLoop tok ['-', a] adj <;> cases e4 : c'.shortLoop tok ['-', a] adj <;> rw [e3, e4] at h2
        · exact h2
        · cases h2
        · cases h2
        · cases (show _ = _ from h2)
          exact rfl
      · exact rfl

theorem short_does (h : Near T c c') :
    Does c c' T (if active c.style Style.allowShort && active c.style Style.allowDashForShort then c.parseShort else skip)
      (if active c'.style Style.allowShort && active c'.style Style.allowDashForShort then c'.parseShort else skip) := by
  intro args ha
  refine ⟨?_, fun os left => ?_⟩
  · cases args with
    | nil => split <;> split <;> exact .refl _
    | cons t r =>
      by_cases ht : Dash t
      · have hm := ha t (by simp)
        rw [h.flag Style.allowShort (by decide) ⟨t, hm, .inr (.inl ⟨rfl, .inl ht⟩)⟩,
          h.flag Style.allowDashForShort (by decide) ⟨t, hm, .inr (.inr (.inl ⟨rfl, ht⟩))⟩]
        have hs := h.flag Style.allowSticky (by decide) ⟨t, hm, .inr (.inr (.inr (.inr (.inl ⟨rfl, ht⟩))))⟩
        split
        · rw [Cmdline.parseShort, Cmdline.parseShort, if_pos ((dash_iff t).2 ht), if_pos ((dash_iff t).2 ht)]
          have h2 := shortLoop_same hs h.sicase h.desc t (substr t 0 2) (t.drop 2)
          cases e3 : c.shortLoop t (substr t 0 2) (t.drop 2) <;> cases e4 : c'.shortLoop t (substr t 0 2) (t.drop 2) <;> rw [e3, e4] at h2
          · exact h2
          · cases h2
          · cases h2
          · cases (show _ = _ from h2)
            exact rfl
        · exact .refl _
      · have : ∀ (c : Cmdline), (if active c.style Style.allowShort && active c.style Style.allowDashForShort then c.parseShort else skip) (t :: r) =
            .ok ([], t :: r) := by
          intro c
          split
          · rw [Cmdline.parseShort, if_neg (by rw [dash_iff]; exact ht)]
          · rfl
        rw [this, this]
        exact rfl
  · split
    · exact short_suffix args os left
    · exact skip_suffix args os left

theorem dos_does (h : Near T c c') :
    Does c c' T (if active c.style Style.allowShort && active c.style Style.allowSlashForShort then Cmdline.parseDos else skip)
      (if active c'.style Style.allowShort && active c'.style Style.allowSlashForShort then Cmdline.parseDos else skip) := by
  intro args ha
  refine ⟨?_, fun os left => ?_⟩
  · cases args with
    | nil => split <;> split <;> exact .refl _
    | cons t r =>
      by_cases ht : Slash t
      · have hm := ha t (by simp)
        rw [h.flag Style.allowShort (by decide) ⟨t, hm, .inr (.inl ⟨rfl, .inr ht⟩)⟩,
          h.flag Style.allowSlashForShort (by decide) ⟨t, hm, .inr (.inr (.inr (.inl ⟨rfl, ht⟩)))⟩]
        exact .refl _
      · have : ∀ (c : Cmdline), (if active c.style Style.allowShort && active c.style Style.allowSlashForShort then Cmdline.parseDos else skip)
            (t :: r) = .ok ([], t :: r) := by
          intro c
          split
          · rw [Cmdline.parseDos, if_neg (by rw [slash_iff]; exact ht)]
          · rfl
        rw [this, this]
        exact rfl
  · split
    · exact dos_suffix args os left
    · exact skip_suffix args os left

theorem slots_do (h : Near T c c') : List.Forall₂ (Does c c' T) (slots c) (slots c') := by
  unfold slots
  refine .cons ?_ (.cons (long_does h) (.cons (disguised_does h) (.cons (short_does h) (.cons (dos_does h)
    (.cons (does_refl _ terminator_suffix) .nil)))))
  rw [h.additional]
  cases c'.additional with
  | none => exact does_refl _ skip_suffix
  | some f => exact does_refl _ (additional_suffix f)

/-! ### The whole run -/

theorem loop_same (h : Near T c c') (hs : c.styleParser = none) (hs' : c'.styleParser = none) (fuel : Nat) (args : List Str)
    (ha : ∀ t ∈ args, t ∈ T) : Like c c' (c.loop fuel args) (c'.loop fuel args) := by
  induction fuel generalizing args with
  | zero => cases args <;> rw [Cmdline.loop, Cmdline.loop] <;> exact .refl _
  | succ fuel ih =>
    cases args with
    | nil => rw [Cmdline.loop, Cmdline.loop]; exact rfl
    | cons a args =>
      rw [Cmdline.loop, Cmdline.loop, step_slots hs, step_slots hs']
      obtain ⟨h1, h2⟩ := tryParsers_same h.toPair (slots_do h) (slots_do h) (a :: args) ha
      cases e1 : c.tryParsers (slots c) (slots c) (a :: args) <;> cases e2 : c'.tryParsers (slots c') (slots c') (a :: args) <;> rw [e1, e2] at h1
      · exact h1
      · cases h1
      · cases h1
      · rename_i r r'
        cases (show r = r' from h1)
        obtain ⟨os, left⟩ := r
        dsimp only
        have h3 := ih left (within (h2 _ _ e1) ha)
        cases e3 : c.loop fuel left <;> cases e4 : c'.loop fuel left <;> rw [e3, e4] at h3
        · exact h3
        · cases h3
        · cases h3
        · cases (show _ = _ from h3)
          exact rfl

theorem regroup_same (h : Pair c c') (k : Nat) (os : List Opt) : Like c c' (c.regroup k os) (c'.regroup k os) := by
  induction os generalizing k with
  | nil => rw [Cmdline.regroup, Cmdline.regroup]; exact rfl
  | cons o os ih =>
    have cont : ∀ (o' : Opt) (k : Nat), Like c c' (match c.regroup k os with | .error f => Except.error f | .ok l => .ok (o' :: l))
        (match c'.regroup k os with | .error f => .error f | .ok l => .ok (o' :: l)) := by
      intro o' k
      have h3 := ih k
      cases e3 : c.regroup k os <;> cases e4 : c'.regroup k os <;> rw [e3, e4] at h3
      · exact h3
      · cases h3
      · cases h3
      · cases (show _ = _ from h3)
        exact rfl
    cases k with
    | succ k => rw [Cmdline.regroup, Cmdline.regroup]; exact ih k
    | zero =>
      rw [Cmdline.regroup, Cmdline.regroup]
      dsimp only
      by_cases hk : o.stringKey = []
      · rw [if_pos hk, if_pos hk]
        exact cont o 0
      · rw [if_neg hk, if_neg hk, h.lookup]
        cases c'.lookup o.stringKey with
        | error f =>
          cases f
          case opt e =>
            dsimp only
            cases o.originalTokens with
            | nil => exact .refl _
            | cons t ts => exact LikeF.addContext (.refl 0 0 (.opt e)) _ _ _ _
          all_goals exact .refl _
        | ok d =>
          cases d with
          | none => exact cont o 0
          | some d =>
            dsimp only
            by_cases h1 : d.semantic.minTokens < d.semantic.maxTokens ∧ o.value.length < d.semantic.maxTokens
            · rw [if_pos h1, if_pos h1]
              cases Cmdline.absorb (Cmdline.takeLimit d.semantic.maxTokens o.value.length) o os with
              | error f => exact .refl _
              | ok r => exact cont r.1 r.2
            · rw [if_neg h1, if_neg h1]
              exact cont o 0

theorem run_same (h : Near args c c') (hs : c.styleParser = none) (hs' : c'.styleParser = none) : Like c c' (c.run args) (c'.run args) := by
  unfold Cmdline.run Cmdline.runFuel
  have h1 := loop_same h hs hs' (args.length + 1) args (fun t ht => ht)
  cases e1 : c.loop (args.length + 1) args <;> cases e2 : c'.loop (args.length + 1) args <;> rw [e1, e2] at h1
  · exact h1
  · cases h1
  · cases h1
  · rename_i r r'
    cases (show r = r' from h1)
    dsimp only
    unfold Cmdline.finalize
    have h2 := regroup_same h.toPair 0 r
    cases e3 : c.regroup 0 r <;> cases e4 : c'.regroup 0 r <;> rw [e3, e4] at h2
    · exact h2
    · cases h2
    · cases h2
    · rename_i q q'
      cases (show q = q' from h2)
      dsimp only
      unfold Cmdline.applyPositional
      rw [h.positional, h.setCase]
      exact .refl _

theorem same_of_like {α : Type} {x y : Except Fail α} (h : Like c c' x y) : Same x y := by
  cases x <;> cases y
  · rcases h with h | ⟨e, e', h1, h2, h3, h4, -, -⟩
    · exact .inl h
    · exact .inr ⟨e, e', h1, h2, h3, h4⟩
  · cases h
  · cases h
  · exact h

theorem eq_of_like {α : Type} {x y : Except Fail α} (hp : c.canonicalPrefix = c'.canonicalPrefix) (h : Like c c' x y) : x = y := by
  cases x <;> cases y
  · rcases h with h | ⟨e, e', rfl, rfl, h3, h4, h5, h6⟩
    · rw [h]
    · obtain ⟨cls, sub, st⟩ := e
      obtain ⟨cls', sub', st'⟩ := e'
      dsimp only at h3 h4 h5 h6
      rw [h3, h4, h5, h6, hp]
  · cases h
  · cases h
  · rw [show _ = _ from h]

theorem run_nil (c : Cmdline) (s s' : Nat) : { c with style := s }.run [] = { c with style := s' }.run [] := by
  unfold Cmdline.run Cmdline.runFuel Cmdline.finalize Cmdline.applyPositional
  cases c.positional <;> rfl

theorem like (c : Cmdline) (hs : c.styleParser = none) (s s' : Nat) (args : List Str)
    (h : ∀ f ∈ flags, (∃ t ∈ args, About f t) → (active s f = true ↔ active s' f = true)) :
    Like { c with style := s } { c with style := s' } ({ c with style := s }.run args) ({ c with style := s' }.run args) := by
  cases args with
  | nil => rw [run_nil c s s']; exact .refl _
  | cons a args =>
    have key : ∀ f ∈ [Style.allowGuessing, Style.longCaseInsensitive, Style.shortCaseInsensitive], active s f = active s' f := by
      intro f hf
      refine Bool.eq_iff_iff.mpr (h f (by revert f; decide) ⟨a, by simp, ?_⟩)
      simp only [List.mem_cons, List.not_mem_nil, or_false] at hf
      exact .inr (.inr (.inr (.inr (.inr (.inr hf)))))
    refine run_same (c := { c with style := s }) (c' := { c with style := s' }) ?_ hs hs
    refine { lookup := fun n => ?_, unreg := rfl, setCase := ?_, positional := rfl, desc := rfl, additional := rfl, sicase := key _ (by simp),
             flag := fun f hf ht => Bool.eq_iff_iff.mpr (h f hf ht) }
    · unfold Cmdline.lookup
      dsimp only
      rw [key Style.allowGuessing (by simp), key Style.longCaseInsensitive (by simp), key Style.shortCaseInsensitive (by simp)]
    · funext o
      unfold Cmdline.setCase
      dsimp only
      rw [key Style.longCaseInsensitive (by simp), key Style.shortCaseInsensitive (by simp)]

end Forms

open Forms

/-- Two styles which have the same of the flags that are about some token of the command line read it alike, for any description, any
positional description and any additional parser: the same options, or the same exception, except perhaps for the prefix it puts before
names of options. -/
theorem C151_forms (c : Cmdline) (hs : c.styleParser = none) (s s' : Nat) (args : List Str)
    (h : ∀ f ∈ flags, (∃ t ∈ args, About f t) → (active s f = true ↔ active s' f = true)) :
    Same ({ c with style := s }.run args) ({ c with style := s' }.run args) := same_of_like (like c hs s s' args h)

/-- If both have long options, the exceptions are the same too. -/
theorem C151_forms_long (c : Cmdline) (hs : c.styleParser = none) (s s' : Nat) (args : List Str)
    (hl : active s Style.allowLong = true) (hl' : active s' Style.allowLong = true)
    (h : ∀ f ∈ flags, (∃ t ∈ args, About f t) → (active s f = true ↔ active s' f = true)) :
    { c with style := s }.run args = { c with style := s' }.run args := by
  refine eq_of_like ?_ (like c hs s s' args h)
  unfold Cmdline.canonicalPrefix
  rw [if_pos hl, if_pos hl']

/-- A command line without `--x`, `-x` and `/x` is read alike in all styles with the same of the three flags on looking up names. -/
theorem C151_no_options (c : Cmdline) (hs : c.styleParser = none) (s s' : Nat) (args : List Str)
    (ht : ∀ t ∈ args, ¬ Long t ∧ ¬ Dash t ∧ ¬ Slash t)
    (h : ∀ f ∈ [Style.allowGuessing, Style.longCaseInsensitive, Style.shortCaseInsensitive], (active s f = true ↔ active s' f = true)) :
    Same ({ c with style := s }.run args) ({ c with style := s' }.run args) := by
  refine C151_forms c hs s s' args fun f _ ⟨t, hm, ha⟩ => ?_
  obtain ⟨h1, h2, h3⟩ := ht t hm
  rcases ha with ⟨-, h4⟩ | ⟨-, h4⟩ | ⟨-, h4⟩ | ⟨-, h4⟩ | ⟨-, h4⟩ | ⟨-, h4⟩ | hf
  · exact absurd h4 h1
  · exact absurd h4 (fun h4 => h4.elim h2 h3)
  · exact absurd h4 h2
  · exact absurd h4 h3
  · exact absurd h4 h2
  · exact absurd h4 (fun h4 => h4.elim h2 h3)
  · exact h f (by simpa using hf)

/-- Slashes for short options change nothing for `--foo=1 a/b -`, but do for `/x1`. -/
example : { desc := [Test.od "foo,x" (Test.sem Test.vstr)], style := Style.defaultStyle : Cmdline }.run [Test.L "--foo=1", Test.L "a/b", Test.L "-"] =
      { desc := [Test.od "foo,x" (Test.sem Test.vstr)], style := Style.defaultStyle ||| Style.allowSlashForShort : Cmdline }.run
        [Test.L "--foo=1", Test.L "a/b", Test.L "-"] ∧
    { desc := [Test.od "foo,x" (Test.sem Test.vstr)], style := Style.defaultStyle : Cmdline }.run [Test.L "/x1"] ≠
      { desc := [Test.od "foo,x" (Test.sem Test.vstr)], style := Style.defaultStyle ||| Style.allowSlashForShort : Cmdline }.run [Test.L "/x1"] := by
  refine ⟨C151_forms_long { desc := [Test.od "foo,x" (Test.sem Test.vstr)] } rfl _ _ _ (by decide) (by decide) ?_, fun h => ?_⟩
  · rintro f hf ⟨t, ht, ha⟩
    have hns : ¬ Slash t := by
      simp only [List.mem_cons, List.not_mem_nil, or_false] at ht
      rcases ht with rfl | rfl | rfl <;> rintro ⟨a, r, h⟩ <;> cases h
    have hne : f ≠ Style.allowSlashForShort := by
      rintro rfl
      rcases ha with ⟨h, -⟩ | ⟨h, -⟩ | ⟨h, -⟩ | ⟨-, h⟩ | ⟨h, -⟩ | ⟨h, -⟩ | h | h | h
      case inr.inr.inr.inl => exact hns h
      all_goals exact absurd h (by decide)
    clear ha hns ht
    revert f
    decide
  · have h1 : { desc := [Test.od "foo,x" (Test.sem Test.vstr)], style := Style.defaultStyle : Cmdline }.run [Test.L "/x1"] =
        .ok [{ positionKey := 0, value := [Test.L "/x1"], originalTokens := [Test.L "/x1"] }] := rfl
    have h2 : { desc := [Test.od "foo,x" (Test.sem Test.vstr)], style := Style.defaultStyle ||| Style.allowSlashForShort : Cmdline }.run
        [Test.L "/x1"] = .ok [{ stringKey := Test.L "foo", value := [Test.L "1"], originalTokens := [Test.L "/x1"] }] := rfl
    rw [h1, h2] at h
    injection h with h
    exact absurd h (by decide)

/-- The prefix may differ: with slashes, or dashes, alone for short options, an additional parser names an option that does not exist. -/
example : { desc := [], additional := some fun t => (t, []), style := Style.allowShort ||| Style.allowSlashForShort : Cmdline }.run [Test.L "x"] ≠
    { desc := [], additional := some fun t => (t, []), style := Style.allowShort ||| Style.allowDashForShort : Cmdline }.run [Test.L "x"] := by
  intro h
  have h1 : { desc := [], additional := some fun t => (t, []), style := Style.allowShort ||| Style.allowSlashForShort : Cmdline }.run [Test.L "x"] =
    .error (errUnknown.addContext (Test.L "x") (Test.L "x") Style.allowSlashForShort) := rfl
  have h2 : { desc := [], additional := some fun t => (t, []), style := Style.allowShort ||| Style.allowDashForShort : Cmdline }.run [Test.L "x"] =
    .error (errUnknown.addContext (Test.L "x") (Test.L "x") Style.allowDashForShort) := rfl
  rw [h1, h2] at h
  injection h with h
  exact absurd h (by decide)

end PO
