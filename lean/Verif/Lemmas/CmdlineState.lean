import Verif.Model.CmdlineState
/-
The parser object: same outcome as the function, and what is left.
-/
namespace PO
namespace Cmdline

/-- Forget what is left by an exception. -/
def forget {α : Type} (r : Except Fail α × List Str) : Except Fail (α × List Str) :=
  match r with
  | (.error f, _) => .error f
  | (.ok a, l) => .ok (a, l)

theorem forget_keeping (p : StyleParser) (args : List Str) : forget (keeping p args) = p args := by
  unfold keeping forget
  cases p args <;> rfl

theorem forget_disguised (c : Cmdline) (args : List Str) : forget (c.parseDisguisedSt args) = c.parseDisguised args := by
  cases args with
  | nil => rfl
  | cons tok rest =>
    simp only [parseDisguisedSt, parseDisguised]
    split
    · cases c.lookup (disguisedName tok) with
      | error f => rfl
      | ok d =>
        cases d with
        | none => rfl
        | some d =>
          simp only [keeping]
          cases c.parseLong (undisguise tok :: rest) <;> rfl
    · rfl

inductive AgreesSt : List StParser → List StyleParser → Prop
  | nil : AgreesSt [] []
  | cons (p' : StParser) (p : StyleParser) (ps' : List StParser) (ps : List StyleParser) (h : ∀ args, forget (p' args) = p args) (t : AgreesSt ps' ps) :
      AgreesSt (p' :: ps') (p :: ps)

theorem AgreesSt.append {a : List StParser} {b : List StyleParser} {a' : List StParser} {b' : List StyleParser} (h : AgreesSt a b) (h' : AgreesSt a' b') :
    AgreesSt (a ++ a') (b ++ b') := by
  induction h with
  | nil => exact h'
  | cons p' p ps' ps h t ih => exact .cons _ _ _ _ h ih

theorem AgreesSt.one {p' : StParser} {p : StyleParser} (h : ∀ args, forget (p' args) = p args) : AgreesSt [p'] [p] := .cons _ _ _ _ h .nil

theorem AgreesSt.ite {q : Prop} [Decidable q] {p' : StParser} {p : StyleParser} (h : ∀ args, forget (p' args) = p args) :
    AgreesSt (if q then [p'] else []) (if q then [p] else []) := by
  split
  · exact .one h
  · exact .nil

theorem parsersSt_agree (c : Cmdline) (hs : c.styleParser = none) : AgreesSt c.parsersSt c.parsers := by
  unfold parsersSt parsers
  rw [hs, List.nil_append]
  refine .append (.append (.append (.append (.append ?_ ?_) ?_) ?_) ?_) ?_
  · cases c.additional with
    | none => exact .nil
    | some f => exact .one (forget_keeping _)
  · exact .ite (forget_keeping _)
  · exact .ite (c.forget_disguised)
  · exact .ite (forget_keeping _)
  · exact .ite (forget_keeping _)
  · exact .one (forget_keeping _)

theorem forget_cases {α : Type} (x : Except Fail α × List Str) (y : Except Fail (α × List Str)) (h : forget x = y) :
    (∃ f l, x = (.error f, l) ∧ y = .error f) ∨ ∃ a l, x = (.ok a, l) ∧ y = .ok (a, l) := by
  obtain ⟨x, l⟩ := x
  cases x with
  | error f => exact .inl ⟨f, l, rfl, h.symm⟩
  | ok a => exact .inr ⟨a, l, rfl, h.symm⟩

theorem lookaheadSt_agree {ps' : List StParser} {ps : List StyleParser} (h : AgreesSt ps' ps) (args : List Str) : lookaheadSt ps' args = lookahead ps args := by
  induction h generalizing args with
  | nil => rfl
  | cons p' p ps' ps h t ih =>
    rw [lookaheadSt, lookahead]
    rcases forget_cases _ _ (h args) with ⟨f, l, e1, e2⟩ | ⟨a, l, e1, e2⟩
    · rw [e1, e2]
    · rw [e1, e2]
      simp only
      rw [ih]

theorem grabSt_agree (c : Cmdline) {ps' : List StParser} {ps : List StyleParser} (h : AgreesSt ps' ps) (n : Nat) (other : List Str) (o : Opt) (orig : Str) :
    forget (c.grabSt ps' n other o orig) = c.grab ps n other o orig := by
  induction n generalizing other o orig with
  | zero => rw [grabSt, grab]; rfl
  | succ n ih =>
    cases other with
    | nil => rw [grabSt, grab]; rfl
    | cons t ts =>
      rw [grabSt, grab, lookaheadSt_agree h]
      cases lookahead ps [t] with
      | error f => rfl
      | ok l =>
        cases l with
        | nil => exact ih _ _ _
        | cons a l =>
          simp only
          cases c.lookup t with
          | error f => rfl
          | ok d =>
            cases d with
            | none => exact ih _ _ _
            | some d => rfl

theorem finishOptionSt_agree (c : Cmdline) {ps' : List StParser} {ps : List StyleParser} (h : AgreesSt ps' ps) (o : Opt) (other : List Str) :
    forget (c.finishOptionSt ps' o other) = c.finishOption ps o other := by
  unfold finishOptionSt finishOption
  by_cases h0 : o.stringKey = []
  · rw [if_pos h0, if_pos h0]; rfl
  · rw [if_neg h0, if_neg h0]
    simp only
    cases c.lookup o.stringKey with
    | error f => rfl
    | ok d =>
      cases d with
      | none =>
        simp only
        by_cases hu : c.allowUnregistered = true
        · rw [if_pos hu, if_pos hu]; rfl
        · rw [if_neg hu, if_neg hu]; rfl
      | some d =>
        simp only
        by_cases hm : o.value.length + other.length ≥ d.semantic.minTokens
        · rw [if_pos hm, if_pos hm]
          by_cases hx : o.value ≠ [] ∧ d.semantic.maxTokens = 0
          · rw [if_pos hx, if_pos hx]; rfl
          · rw [if_neg hx, if_neg hx]; exact c.grabSt_agree h _ _ _ _
        · rw [if_neg hm, if_neg hm]; rfl

theorem finishAllSt_agree (c : Cmdline) {ps' : List StParser} {ps : List StyleParser} (h : AgreesSt ps' ps) (os : List Opt) (args : List Str) :
    forget (c.finishAllSt ps' os args) = c.finishAll ps os args := by
  induction os with
  | nil => rw [finishAllSt, finishAll]; rfl
  | cons o os ih =>
    cases os with
    | nil =>
      rw [finishAllSt, finishAll]
      rcases forget_cases _ _ (c.finishOptionSt_agree h o args) with ⟨f, l, e1, e2⟩ | ⟨a, l, e1, e2⟩ <;> rw [e1, e2] <;> rfl
    | cons o' os =>
      rw [finishAllSt, finishAll]
      · rcases forget_cases _ _ (c.finishOptionSt_agree h o []) with ⟨f, l, e1, e2⟩ | ⟨a, l, e1, e2⟩
        · rw [e1, e2]; rfl
        · rw [e1, e2]
          simp only
          rcases forget_cases _ _ ih with ⟨f, l, e1, e2⟩ | ⟨a, l, e1, e2⟩ <;> rw [e1, e2] <;> rfl
      · simp
      · simp

theorem tryParsersSt_agree (c : Cmdline) {all' : List StParser} {all : List StyleParser} (hall : AgreesSt all' all) {ps' : List StParser} {ps : List StyleParser}
    (h : AgreesSt ps' ps) (args : List Str) : forget (c.tryParsersSt all' ps' args) = c.tryParsers all ps args := by
  induction h generalizing args with
  | nil => cases args <;> rfl
  | cons p' p ps' ps h t ih =>
    rw [tryParsersSt, tryParsers]
    rcases forget_cases _ _ (h args) with ⟨f, l, e1, e2⟩ | ⟨a, l, e1, e2⟩
    · rw [e1, e2]; rfl
    · rw [e1, e2]
      simp only
      rcases forget_cases _ _ (c.finishAllSt_agree hall a l) with ⟨f, l', e1, e2⟩ | ⟨a', l', e1, e2⟩
      · rw [e1, e2]; rfl
      · rw [e1, e2]
        simp only
        by_cases hn : l'.length ≠ args.length
        · rw [if_pos hn, if_pos hn]; rfl
        · rw [if_neg hn, if_neg hn]
          rcases forget_cases _ _ (ih l') with ⟨f, l', e1, e2⟩ | ⟨a', l', e1, e2⟩ <;> rw [e1, e2] <;> rfl

theorem loopSt_agree (c : Cmdline) (hs : c.styleParser = none) (n : Nat) (args : List Str) : (c.loopSt n args).1 = c.loop n args := by
  induction n generalizing args with
  | zero => cases args <;> rfl
  | succ n ih =>
    cases args with
    | nil => rfl
    | cons a args =>
      rw [loopSt, loop, step]
      rcases forget_cases _ _ (c.tryParsersSt_agree (c.parsersSt_agree hs) (c.parsersSt_agree hs) (a :: args)) with ⟨f, l, e1, e2⟩ | ⟨os, l, e1, e2⟩
      · rw [e1, e2]
      · rw [e1, e2]
        simp only
        rw [← ih l]
        generalize c.loopSt n l = x
        obtain ⟨x, l'⟩ := x
        cases x <;> rfl

theorem runSt_run (c : Cmdline) (hs : c.styleParser = none) (args : List Str) : (c.runSt args).1 = c.run args := by
  unfold runSt run runFuel
  rw [← c.loopSt_agree hs]
  generalize c.loopSt (args.length + 1) args = x
  obtain ⟨x, l'⟩ := x
  cases x <;> rfl

theorem loopSt_ok (c : Cmdline) (n : Nat) (args : List Str) (os : List Opt) (l : List Str) (h : c.loopSt n args = (.ok os, l)) : l = [] := by
  induction n generalizing args os with
  | zero => cases args with
    | nil => rw [loopSt] at h; cases h; rfl
    | cons a args => rw [loopSt] at h; cases h
  | succ n ih =>
    cases args with
    | nil => rw [loopSt] at h; cases h; rfl
    | cons a args =>
      rw [loopSt] at h
      generalize c.tryParsersSt c.parsersSt c.parsersSt (a :: args) = x at h
      obtain ⟨x, l'⟩ := x
      cases x with
      | error f => simp at h
      | ok o =>
        simp only at h
        cases hx : c.loopSt n l' with
        | mk y l'' =>
          rw [hx] at h
          cases y with
          | error f => simp at h
          | ok o' =>
            simp only [Prod.mk.injEq] at h
            exact ih _ o' (by rw [hx, h.2])

end Cmdline
end PO
