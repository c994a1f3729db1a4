import Verif.Spec.Builder
import Verif.Tests.Util
/-
C132: what a chain of calls declares.
-/
namespace PO.Builder
open Spec

theorem performAll_cons (text : AVal → Option Str) (o : Obj) (c : Call) (cs : List Call) :
    performAll text o (c :: cs) = if (perform text o c).2 = true then ((perform text o c).1, true) else performAll text (perform text o c).1 cs := by
  rw [performAll]
  rcases h : perform text o c with ⟨o', b⟩
  cases b <;> simp

/-- A member that each call either sets or leaves alone has in the end the value of the last call that sets it. -/
theorem performAll_last {β : Type} (text : AVal → Option Str) (get : Obj → β) (sets : Call → Option β)
    (hstep : ∀ o c, (perform text o c).2 = false → get (perform text o c).1 = (sets c).getD (get o)) (cs : List Call) (o o' : Obj)
    (h : performAll text o cs = (o', false)) : get o' = (cs.filterMap sets).getLast?.getD (get o) := by
  induction cs generalizing o with
  | nil => cases h; rfl
  | cons c cs ih =>
    rw [performAll_cons] at h
    by_cases hb : (perform text o c).2 = true
    · rw [if_pos hb] at h; cases h
    · rw [if_neg hb] at h
      rw [ih _ h, hstep o c (by simpa using hb)]
      cases hc : sets c with
      | none => rw [List.filterMap_cons_none hc]; rfl
      | some b =>
        rw [List.filterMap_cons_some hc, List.getLast?_cons]
        cases (cs.filterMap sets).getLast? <;> rfl

theorem performAll_same {β : Type} (text : AVal → Option Str) (get : Obj → β) (hstep : ∀ o c, get (perform text o c).1 = get o) (cs : List Call) (o : Obj) :
    get (performAll text o cs).1 = get o := by
  induction cs generalizing o with
  | nil => rfl
  | cons c cs ih =>
    rw [performAll_cons]
    by_cases hb : (perform text o c).2 = true
    · rw [if_pos hb]; exact hstep o c
    · rw [if_neg hb, ih, hstep]

theorem last_some {α : Type} (f : Call → Option α) (cs : List Call) :
    (cs.filterMap fun c => (f c).map some).getLast?.getD none = (cs.filterMap f).getLast? := by
  have : (cs.filterMap fun c => (f c).map some) = (cs.filterMap f).map some := by
    induction cs with
    | nil => rfl
    | cons c cs ih =>
      cases h : f c with
      | none => rw [List.filterMap_cons_none (by simp [h]), List.filterMap_cons_none h, ih]
      | some a => rw [List.filterMap_cons_some (b := some a) (by simp [h]), List.filterMap_cons_some h, ih]; rfl
  rw [this, List.getLast?_map]
  cases (cs.filterMap f).getLast? <;> rfl

theorem last_flag (k : Call) (cs : List Call) :
    (cs.filterMap fun c => if c = k then some true else none).getLast?.getD false = true ↔ k ∈ cs := by
  induction cs with
  | nil => simp
  | cons c cs ih =>
    by_cases h : c = k
    · rw [List.filterMap_cons_some (b := true) (by simp [h]), List.getLast?_cons]
      refine ⟨fun _ => by simp [h], fun _ => ?_⟩
      have : ∀ b, (cs.filterMap fun c => if c = k then some true else none).getLast? = some b → b = true := by
        intro b hb
        have := List.mem_of_getLast? hb
        obtain ⟨c, -, hc⟩ := List.mem_filterMap.1 this
        split at hc
        · cases hc; rfl
        · cases hc
      cases hl : (cs.filterMap fun c => if c = k then some true else none).getLast? with
      | none => rfl
      | some b => rw [this b hl]; rfl
    · rw [List.filterMap_cons_none (by simp [h]), ih]
      simp [Ne.symm h]

theorem perform_cases (text : AVal → Option Str) (o : Obj) (c : Call) :
    (perform text o c).2 = true ↔ ∃ v, (c = .default v ∨ c = .implicit v) ∧ text v = none := by
  cases c with
  | default v =>
    simp only [perform]
    cases h : text v with
    | none => exact ⟨fun _ => ⟨v, .inl rfl, h⟩, fun _ => rfl⟩
    | some s => refine ⟨nofun, ?_⟩; rintro ⟨w, hw | hw, hn⟩ <;> cases hw; rw [h] at hn; cases hn
  | implicit v =>
    simp only [perform]
    cases h : text v with
    | none => exact ⟨fun _ => ⟨v, .inr rfl, h⟩, fun _ => rfl⟩
    | some s => refine ⟨nofun, ?_⟩; rintro ⟨w, hw | hw, hn⟩ <;> cases hw; rw [h] at hn; cases hn
  | _ => exact ⟨nofun, by rintro ⟨w, hw | hw, _⟩ <;> cases hw⟩

end PO.Builder

namespace PO
open Spec Builder

/-- A chain of calls throws if and only if it contains a default or implicit value whose text cannot be made. -/
theorem C132_throws (text : AVal → Option Str) (o : Obj) (cs : List Call) : (performAll text o cs).2 = true ↔ Unprintable text cs := by
  induction cs generalizing o with
  | nil => exact ⟨nofun, by rintro ⟨v, h | h, _⟩ <;> cases h⟩
  | cons c cs ih =>
    rw [performAll_cons]
    by_cases hb : (perform text o c).2 = true
    · rw [if_pos hb]
      obtain ⟨v, hv, hn⟩ := (perform_cases text o c).1 hb
      refine ⟨fun _ => ⟨v, ?_, hn⟩, fun _ => rfl⟩
      rcases hv with rfl | rfl <;> simp
    · rw [if_neg hb, ih]
      constructor
      · rintro ⟨v, hv, hn⟩
        exact ⟨v, hv.imp (List.mem_cons_of_mem _) (List.mem_cons_of_mem _), hn⟩
      · rintro ⟨v, hv, hn⟩
        refine ⟨v, hv.imp ?_ ?_, hn⟩ <;> intro h <;> rcases List.mem_cons.1 h with e | e
        · exact absurd ((perform_cases text o c).2 ⟨v, .inl e.symm, hn⟩) hb
        · exact e
        · exact absurd ((perform_cases text o c).2 ⟨v, .inr e.symm, hn⟩) hb
        · exact e

/-- **C132:** what a chain of calls declares: of each kind the last call counts, wherever it stands among the others; nothing else does. -/
theorem C132_declares (text : AVal → Option Str) (type : VType) (wide : Bool) (storeTo : Option Nat) (cs : List Call) (o : Obj)
    (h : performAll text (fresh type wide storeTo) cs = (o, false)) : DeclaredBy text type wide storeTo cs o.typed := by
  have h1 : (performAll text (fresh type wide storeTo) cs).1 = o := by rw [h]
  constructor
  · rw [← h1]; exact performAll_same text Obj.type (by intro o c; cases c <;> simp only [perform] <;> split <;> rfl) cs _
  · rw [← h1]; exact performAll_same text Obj.wide (by intro o c; cases c <;> simp only [perform] <;> split <;> rfl) cs _
  · rw [← h1]; exact performAll_same text Obj.storeTo (by intro o c; cases c <;> simp only [perform] <;> split <;> rfl) cs _
  · exact performAll_last text Obj.valueName setsName (by intro o c _; cases c <;> simp only [perform, setsName] <;> (try split) <;> rfl) cs _ o h
  · have := performAll_last text (fun o => o.dflt.map fun v => (v, o.dfltText)) (fun c => (setsDefault text c).map some)
      (by
        intro o c hc
        cases c with
        | default v => simp only [perform, setsDefault] at hc ⊢; cases hv : text v with | none => rw [hv] at hc; cases hc | some s => rfl
        | implicit v => simp only [perform, setsDefault] at hc ⊢; split <;> rfl
        | _ => rfl) cs _ o h
    exact this.trans (last_some _ _)
  · have := performAll_last text (fun o => o.implicit.map fun v => (v, o.implicitText)) (fun c => (setsImplicit text c).map some)
      (by
        intro o c hc
        cases c with
        | implicit v => simp only [perform, setsImplicit] at hc ⊢; cases hv : text v with | none => rw [hv] at hc; cases hc | some s => rfl
        | default v => simp only [perform, setsImplicit] at hc ⊢; split <;> rfl
        | _ => rfl) cs _ o h
    exact this.trans (last_some _ _)
  · rw [← last_flag]
    exact iff_of_eq (congrArg (· = true) (performAll_last text Obj.composing (fun c => if c = .composing then some true else none)
      (by intro o c _; cases c <;> simp [perform] <;> split <;> rfl) cs _ o h))
  · rw [← last_flag]
    exact iff_of_eq (congrArg (· = true) (performAll_last text Obj.multitoken (fun c => if c = .multitoken then some true else none)
      (by intro o c _; cases c <;> simp [perform] <;> split <;> rfl) cs _ o h))
  · rw [← last_flag]
    exact iff_of_eq (congrArg (· = true) (performAll_last text Obj.zeroTokens (fun c => if c = .zeroTokens then some true else none)
      (by intro o c _; cases c <;> simp [perform] <;> split <;> rfl) cs _ o h))
  · rw [← last_flag]
    exact iff_of_eq (congrArg (· = true) (performAll_last text Obj.required (fun c => if c = .required then some true else none)
      (by intro o c _; cases c <;> simp [perform] <;> split <;> rfl) cs _ o h))
  · exact performAll_last text Obj.notifier setsNotifier (by intro o c _; cases c <;> simp only [perform, setsNotifier] <;> (try split) <;> rfl) cs _ o h

theorem declaredBy_unique {text : AVal → Option Str} {type : VType} {wide : Bool} {storeTo : Option Nat} {cs : List Call} {t t' : TypedValue}
    (h : DeclaredBy text type wide storeTo cs t) (h' : DeclaredBy text type wide storeTo cs t') : t = t' := by
  obtain ⟨a1, a2, a3, a4, a5, a6, a7, a8, a9, a10, a11⟩ := h
  obtain ⟨b1, b2, b3, b4, b5, b6, b7, b8, b9, b10, b11⟩ := h'
  have flag : ∀ {x y : Bool} {P : Prop}, (x = true ↔ P) → (y = true ↔ P) → x = y := by
    intro x y P hx hy
    have := hx.trans hy.symm
    cases x <;> cases y <;> simp_all
  have c7 := flag a7 b7
  have c8 := flag a8 b8
  have c9 := flag a9 b9
  have c10 := flag a10 b10
  cases t; cases t'
  dsimp only at *
  subst c7 c8 c9 c10
  subst a1 a2 a3 a4 a5 a6 a11
  subst b1 b2 b3 b4 b5 b6 b11
  rfl

/-- The kinds of calls: calls of the same kind set the same member. -/
inductive Spec.CallKind
  | dflt | implicit | valueName | notifier | composing | multitoken | zeroTokens | required
  deriving DecidableEq

def Spec.kindOf : Call → CallKind
  | .default _ | .defaultWithText _ _ => .dflt
  | .implicit _ | .implicitWithText _ _ => .implicit
  | .valueName _ => .valueName
  | .notifier _ => .notifier
  | .composing => .composing
  | .multitoken => .multitoken
  | .zeroTokens => .zeroTokens
  | .required => .required

theorem filterMap_kind {β : Type} (sets : Call → Option β) (k : CallKind) (hk : ∀ c, kindOf c ≠ k → sets c = none) (cs : List Call) :
    cs.filterMap sets = (cs.filter fun c => kindOf c = k).filterMap sets := by
  induction cs with
  | nil => rfl
  | cons c cs ih =>
    by_cases h : kindOf c = k
    · rw [List.filter_cons_of_pos (by simpa using h)]
      simp only [List.filterMap_cons, ih]
    · rw [List.filter_cons_of_neg (by simpa using h), List.filterMap_cons_none (hk c h), ih]

/-- **C132, order:** calls of different kinds may be made in any order. -/
theorem C132_order (text : AVal → Option Str) (type : VType) (wide : Bool) (storeTo : Option Nat) (cs cs' : List Call)
    (hk : ∀ k, cs.filter (fun c => kindOf c = k) = cs'.filter (fun c => kindOf c = k)) :
    (performAll text (fresh type wide storeTo) cs).2 = (performAll text (fresh type wide storeTo) cs').2 ∧
    ((performAll text (fresh type wide storeTo) cs).2 = false →
      (performAll text (fresh type wide storeTo) cs).1.typed = (performAll text (fresh type wide storeTo) cs').1.typed) := by
  have hmem : ∀ c, c ∈ cs ↔ c ∈ cs' := by
    intro c
    have : ∀ l : List Call, c ∈ l ↔ c ∈ l.filter (fun d => kindOf d = kindOf c) := by
      intro l; rw [List.mem_filter]; simp
    rw [this cs, this cs', hk]
  have hthrow : (performAll text (fresh type wide storeTo) cs).2 = (performAll text (fresh type wide storeTo) cs').2 := by
    have h1 := C132_throws text (fresh type wide storeTo) cs
    have h2 := C132_throws text (fresh type wide storeTo) cs'
    have : Unprintable text cs ↔ Unprintable text cs' := by
      unfold Unprintable; simp only [hmem]
    rw [this, ← h2] at h1
    cases h : (performAll text (fresh type wide storeTo) cs).2 <;> cases h' : (performAll text (fresh type wide storeTo) cs').2 <;> simp_all
  refine ⟨hthrow, fun hf => ?_⟩
  have d1 := C132_declares text type wide storeTo cs _ (Prod.ext rfl hf)
  have d2 := C132_declares text type wide storeTo cs' _ (Prod.ext rfl (hthrow ▸ hf))
  refine declaredBy_unique d1 ⟨d2.type, d2.wide, d2.storeTo, ?_, ?_, ?_, ?_, ?_, ?_, ?_, ?_⟩
  · rw [d2.valueName, filterMap_kind setsName .valueName (by intro c; cases c <;> simp [kindOf, setsName]) cs,
      filterMap_kind setsName .valueName (by intro c; cases c <;> simp [kindOf, setsName]) cs', hk]
  · rw [d2.dflt, filterMap_kind (setsDefault text) .dflt (by intro c; cases c <;> simp [kindOf, setsDefault]) cs,
      filterMap_kind (setsDefault text) .dflt (by intro c; cases c <;> simp [kindOf, setsDefault]) cs', hk]
  · rw [d2.implicit, filterMap_kind (setsImplicit text) .implicit (by intro c; cases c <;> simp [kindOf, setsImplicit]) cs,
      filterMap_kind (setsImplicit text) .implicit (by intro c; cases c <;> simp [kindOf, setsImplicit]) cs', hk]
  · rw [d2.composing, hmem]
  · rw [d2.multitoken, hmem]
  · rw [d2.zeroTokens, hmem]
  · rw [d2.required, hmem]
  · rw [d2.notifier, filterMap_kind setsNotifier .notifier (by intro c; cases c <;> simp [kindOf, setsNotifier]) cs,
      filterMap_kind setsNotifier .notifier (by intro c; cases c <;> simp [kindOf, setsNotifier]) cs', hk]

/-- The name shown in the help, computed from the members, is the one the rest of the model uses. -/
theorem C132_name (o : Obj) : o.name = o.typed.name := by
  unfold Obj.name TypedValue.name Obj.typed
  cases o.dflt <;> cases o.implicit <;> simp

/-- `bool_switch` declares what the rest of the model uses, as the text of `false` is "0". -/
theorem C132_switch (text : AVal → Option Str) (ht : text (.scalar (.bool false)) = some (str% "0")) (storeTo : Option Nat) :
    ∃ o, performAll text (fresh (.scalar .bool) false storeTo) switchCalls = (o, false) ∧ o.typed = boolSwitch storeTo := by
  refine ⟨{ fresh (.scalar .bool) false storeTo with dflt := some (.scalar (.bool false)), dfltText := str% "0", zeroTokens := true }, ?_, rfl⟩
  simp only [switchCalls, performAll, perform, ht]

/-- The full claim: after any calls, successful or not, the texts belong to the values. -/
def C132_claim : Prop := ∀ (text : AVal → Option Str) (type : VType) (wide : Bool) (storeTo : Option Nat) (cs : List Call),
  TextsRight text cs (performAll text (fresh type wide storeTo) cs).1

/-- **C132, texts, part that holds:** if no call throws, the texts in the help belong to the values that will be used. Missing: after a call that
has thrown (`C132_negation`). -/
theorem C132_texts_partial (text : AVal → Option Str) (type : VType) (wide : Bool) (storeTo : Option Nat) (cs : List Call)
    (h : (performAll text (fresh type wide storeTo) cs).2 = false) : TextsRight text cs (performAll text (fresh type wide storeTo) cs).1 := by
  have d := C132_declares text type wide storeTo cs _ (Prod.ext rfl h)
  constructor
  · intro v hv
    have := d.dflt
    simp only [Obj.typed, hv, Option.map_some] at this
    obtain ⟨c, hc, he⟩ := List.mem_filterMap.1 (List.mem_of_getLast? this.symm)
    cases c with
    | default w =>
      simp only [setsDefault, Option.map_eq_some_iff, Prod.mk.injEq] at he
      obtain ⟨s, hs, rfl, rfl⟩ := he
      exact .inl ⟨hc, hs⟩
    | defaultWithText w s =>
      simp only [setsDefault, Option.some.injEq, Prod.mk.injEq] at he
      obtain ⟨rfl, rfl⟩ := he
      exact .inr hc
    | _ => cases he
  · intro v hv
    have := d.implicit
    simp only [Obj.typed, hv, Option.map_some] at this
    obtain ⟨c, hc, he⟩ := List.mem_filterMap.1 (List.mem_of_getLast? this.symm)
    cases c with
    | implicit w =>
      simp only [setsImplicit, Option.map_eq_some_iff, Prod.mk.injEq] at he
      obtain ⟨s, hs, rfl, rfl⟩ := he
      exact .inl ⟨hc, hs⟩
    | implicitWithText w s =>
      simp only [setsImplicit, Option.some.injEq, Prod.mk.injEq] at he
      obtain ⟨rfl, rfl⟩ := he
      exact .inr hc
    | _ => cases he

theorem performAll_append (text : AVal → Option Str) (o : Obj) (as bs : List Call) (h : (performAll text o as).2 = false) :
    performAll text o (as ++ bs) = performAll text (performAll text o as).1 bs := by
  induction as generalizing o with
  | nil => rfl
  | cons c cs ih =>
    rw [performAll_cons] at h
    rw [List.cons_append, performAll_cons, performAll_cons]
    by_cases hb : (perform text o c).2 = true
    · rw [if_pos hb] at h; cases h
    · rw [if_neg hb] at h
      rw [if_neg hb, if_neg hb, ih _ h]

/-- **C132, what is left after an exception:** the value whose text could not be made is the default nevertheless, with the text of the default before
it, or none; nothing after it is done. -/
theorem C132_stale (text : AVal → Option Str) (type : VType) (wide : Bool) (storeTo : Option Nat) (as bs : List Call) (v : AVal)
    (ha : ¬ Unprintable text as) (hv : text v = none) :
    (performAll text (fresh type wide storeTo) (as ++ .default v :: bs)).1 =
      { (performAll text (fresh type wide storeTo) as).1 with dflt := some v } ∧
    (performAll text (fresh type wide storeTo) (as ++ .implicit v :: bs)).1 =
      { (performAll text (fresh type wide storeTo) as).1 with implicit := some v } := by
  have h : (performAll text (fresh type wide storeTo) as).2 = false := by
    have := C132_throws text (fresh type wide storeTo) as
    cases hh : (performAll text (fresh type wide storeTo) as).2 with
    | false => rfl
    | true => exact absurd (this.1 hh) ha
  rw [performAll_append _ _ _ _ h, performAll_append _ _ _ _ h, performAll_cons, performAll_cons]
  have e1 : ∀ o : Obj, perform text o (.default v) = ({ o with dflt := some v }, true) := by intro o; simp [perform, hv]
  have e2 : ∀ o : Obj, perform text o (.implicit v) = ({ o with implicit := some v }, true) := by intro o; simp [perform, hv]
  rw [e1, e2]
  exact ⟨rfl, rfl⟩

/-- A type whose value 2 cannot be printed. -/
def Ex.halfPrintable : AVal → Option Str := fun v => if v = .scalar (.lex 0 2) then none else some (str% "one")

/-- **C132 is false in the code:** the value is assigned before its text is made. If `default_value` throws, the help goes on showing the text of
the default before, but the new value is used. -/
theorem C132_negation : ¬ C132_claim := by
  intro h
  have := (h Ex.halfPrintable (.scalar (.lex 0)) false none [.default (.scalar (.lex 0 1)), .default (.scalar (.lex 0 2))]).1
    (.scalar (.lex 0 2)) (by decide)
  revert this
  decide

/-- What the help shows then, and what is used. -/
example : (performAll Ex.halfPrintable (fresh (.scalar (.lex 0)) false none) [.default (.scalar (.lex 0 1)), .default (.scalar (.lex 0 2))]).1.name
      = str% "arg (=one)" ∧
    ((performAll Ex.halfPrintable (fresh (.scalar (.lex 0)) false none) [.default (.scalar (.lex 0 1)), .default (.scalar (.lex 0 2))]).1.typed.toSemantic
      Test.env).applyDefault = some (some (.scalar (.lex 0 2))) := by decide

/-- Calls of different kinds in two orders, and a default that is replaced. -/
example : (performAll Ex.halfPrintable (fresh (.scalar .str) false none)
      [.composing, .default (.scalar (.str [])), .valueName (str% "x"), .defaultWithText (.scalar (.str (str% "b"))) (str% "B")]).1 =
    (performAll Ex.halfPrintable (fresh (.scalar .str) false none)
      [.valueName (str% "x"), .defaultWithText (.scalar (.str (str% "b"))) (str% "B"), .composing]).1 := by decide

end PO
