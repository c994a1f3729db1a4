import Verif.Model.Cmdline
/-
What the result of parsing a command line depends on.
-/
namespace PO

/-- The names and token counts of an option. -/
def OptionDesc.shape (d : OptionDesc) : Str × List Str × Nat × Nat :=
  (d.shortName, d.longNames, d.semantic.minTokens, d.semantic.maxTokens)

namespace OptionDesc
variable {d d' : OptionDesc}

theorem shape_short (h : d.shape = d'.shape) : d.shortName = d'.shortName := congrArg (·.1) h
theorem shape_long (h : d.shape = d'.shape) : d.longNames = d'.longNames := congrArg (·.2.1) h
theorem shape_min (h : d.shape = d'.shape) : d.semantic.minTokens = d'.semantic.minTokens := congrArg (·.2.2.1) h
theorem shape_max (h : d.shape = d'.shape) : d.semantic.maxTokens = d'.semantic.maxTokens := congrArg (·.2.2.2) h

theorem shape_key (h : d.shape = d'.shape) (n : Str) : d.key n = d'.key n := by
  unfold key; rw [shape_long h, shape_short h]

theorem shape_match (h : d.shape = d'.shape) (n : Str) (a b c : Bool) : d.match n a b c = d'.match n a b c := by
  unfold OptionDesc.match; rw [shape_long h, shape_short h]

end OptionDesc

theorem findLoop_shape (name : Str) (a b c : Bool) (l l' : List OptionDesc) (h : l.map OptionDesc.shape = l'.map OptionDesc.shape)
    (found found' : Option OptionDesc) (hf : found.map OptionDesc.shape = found'.map OptionDesc.shape) (full apx : List Str) :
    (findLoop name a b c l found full apx).1.map OptionDesc.shape = (findLoop name a b c l' found' full apx).1.map OptionDesc.shape ∧
    (findLoop name a b c l found full apx).2 = (findLoop name a b c l' found' full apx).2 := by
  induction l generalizing l' found found' full apx with
  | nil =>
    cases l' with
    | nil => exact ⟨hf, rfl⟩
    | cons d' l' => simp at h
  | cons d l ih =>
    cases l' with
    | nil => simp at h
    | cons d' l' =>
      simp only [List.map_cons, List.cons.injEq] at h
      rw [findLoop, findLoop, OptionDesc.shape_match h.1, OptionDesc.shape_key h.1]
      split
      · exact ih _ h.2 _ _ hf _ _
      · exact ih _ h.2 _ _ (by simp [h.1]) _ _
      · refine ih _ h.2 _ _ ?_ _ _
        split
        · simp [h.1]
        · exact hf

/-- Lookups agree. -/
def SameLookup (r r' : Except Fail (Option OptionDesc)) : Prop :=
  match r, r' with
  | .error f, .error f' => f = f'
  | .ok none, .ok none => True
  | .ok (some d), .ok (some d') => d.shape = d'.shape
  | _, _ => False

theorem findNothrow_shape (name : Str) (a b c : Bool) (l l' : List OptionDesc) (h : l.map OptionDesc.shape = l'.map OptionDesc.shape) :
    SameLookup (findNothrow l name a b c) (findNothrow l' name a b c) := by
  obtain ⟨h1, h2⟩ := findLoop_shape name a b c l l' h none none rfl [] []
  unfold findNothrow
  generalize findLoop name a b c l none [] [] = r at h1 h2 ⊢
  generalize findLoop name a b c l' none [] [] = r' at h1 h2 ⊢
  obtain ⟨x, r⟩ := r
  obtain ⟨y, r'⟩ := r'
  simp only at h1 h2 ⊢
  subst h2
  split
  · rfl
  · split
    · rfl
    · cases x <;> cases y <;> simp_all [SameLookup]

namespace Cmdline

/-- The style bits that matter. -/
def relevantBits : List Nat :=
  [Style.allowLong, Style.allowShort, Style.allowDashForShort, Style.allowSlashForShort, Style.allowSticky, Style.allowGuessing,
    Style.longCaseInsensitive, Style.shortCaseInsensitive, Style.allowLongDisguise]

/-- Parsers that differ in nothing that matters before the naming of positional arguments. -/
structure Alike (c c' : Cmdline) : Prop where
  bits : ∀ b ∈ relevantBits, active c.style b = active c'.style b
  unreg : c.allowUnregistered = c'.allowUnregistered
  desc : c.desc.map OptionDesc.shape = c'.desc.map OptionDesc.shape
  additional : c.additional = c'.additional
  styleParser : c.styleParser = c'.styleParser

namespace Alike
variable {c c' : Cmdline}

theorem long (h : Alike c c') : active c.style Style.allowLong = active c'.style Style.allowLong := h.bits _ (by simp [relevantBits])
theorem short (h : Alike c c') : active c.style Style.allowShort = active c'.style Style.allowShort := h.bits _ (by simp [relevantBits])
theorem dash (h : Alike c c') : active c.style Style.allowDashForShort = active c'.style Style.allowDashForShort := h.bits _ (by simp [relevantBits])
theorem slash (h : Alike c c') : active c.style Style.allowSlashForShort = active c'.style Style.allowSlashForShort := h.bits _ (by simp [relevantBits])
theorem sticky (h : Alike c c') : active c.style Style.allowSticky = active c'.style Style.allowSticky := h.bits _ (by simp [relevantBits])
theorem guess (h : Alike c c') : active c.style Style.allowGuessing = active c'.style Style.allowGuessing := h.bits _ (by simp [relevantBits])
theorem licase (h : Alike c c') : active c.style Style.longCaseInsensitive = active c'.style Style.longCaseInsensitive := h.bits _ (by simp [relevantBits])
theorem sicase (h : Alike c c') : active c.style Style.shortCaseInsensitive = active c'.style Style.shortCaseInsensitive := h.bits _ (by simp [relevantBits])
theorem disg (h : Alike c c') : active c.style Style.allowLongDisguise = active c'.style Style.allowLongDisguise := h.bits _ (by simp [relevantBits])

theorem pre (h : Alike c c') : c.canonicalPrefix = c'.canonicalPrefix := by
  unfold canonicalPrefix
  rw [h.long, h.disg, h.short, h.dash, h.slash]

theorem lookup (h : Alike c c') (n : Str) : SameLookup (c.lookup n) (c'.lookup n) := by
  unfold Cmdline.lookup
  rw [h.guess, h.licase, h.sicase]
  exact findNothrow_shape _ _ _ _ _ _ h.desc

theorem parseLong (h : Alike c c') : c.parseLong = c'.parseLong := by
  funext args
  cases args with
  | nil => rfl
  | cons tok rest => rw [Cmdline.parseLong, Cmdline.parseLong, h.pre]

theorem findShort (h : Alike c c') (n : Str) : SameLookup (c.findShort n) (c'.findShort n) := by
  unfold Cmdline.findShort
  rw [h.sicase, h.pre]
  have := findNothrow_shape n false false (active c'.style Style.shortCaseInsensitive) _ _ h.desc
  cases h1 : findNothrow c.desc n false false (active c'.style Style.shortCaseInsensitive) <;>
    cases h2 : findNothrow c'.desc n false false (active c'.style Style.shortCaseInsensitive) <;>
    rw [h1, h2] at this
  · simp [SameLookup] at this ⊢; rw [this]
  · simp [SameLookup] at this
  · simp [SameLookup] at this
  · exact this

theorem takesNoValue (h : Alike c c') (d d' : Option OptionDesc) (hd : SameLookup (.ok d) (.ok d')) : c.takesNoValue d = c'.takesNoValue d' := by
  unfold Cmdline.takesNoValue
  rw [h.sticky]
  cases d with
  | none =>
    cases d' with
    | none => rfl
    | some d' => simp [SameLookup] at hd
  | some d =>
    cases d' with
    | none => simp [SameLookup] at hd
    | some d' => simp only; rw [OptionDesc.shape_max hd]

theorem shortLoop (h : Alike c c') (tok name adj : Str) : c.shortLoop tok name adj = c'.shortLoop tok name adj := by
  induction adj generalizing name with
  | nil =>
    rw [Cmdline.shortLoop, Cmdline.shortLoop]
    have := h.findShort name
    cases h1 : c.findShort name <;> cases h2 : c'.findShort name <;> rw [h1, h2] at this
    · simp [SameLookup] at this; rw [this]
    · simp [SameLookup] at this
    · simp [SameLookup] at this
  | cons a adj ih =>
    rw [Cmdline.shortLoop, Cmdline.shortLoop]
    have := h.findShort name
    cases h1 : c.findShort name <;> cases h2 : c'.findShort name <;> rw [h1, h2] at this
    · simp [SameLookup] at this; rw [this]
    · simp [SameLookup] at this
    · simp [SameLookup] at this
    · simp only
      rw [h.takesNoValue _ _ this, ih]

theorem parseShort (h : Alike c c') : c.parseShort = c'.parseShort := by
  funext args
  cases args with
  | nil => rfl
  | cons tok rest => rw [Cmdline.parseShort, Cmdline.parseShort, h.shortLoop]

theorem parseDisguised (h : Alike c c') : c.parseDisguised = c'.parseDisguised := by
  funext args
  cases args with
  | nil => rfl
  | cons tok rest =>
    rw [Cmdline.parseDisguised, Cmdline.parseDisguised, h.slash, h.parseLong, h.pre]
    have := h.lookup (disguisedName tok)
    cases h1 : c.lookup (disguisedName tok) <;> cases h2 : c'.lookup (disguisedName tok) <;> rw [h1, h2] at this
    · simp [SameLookup] at this; rw [this]
    · simp [SameLookup] at this
    · simp [SameLookup] at this
    · rename_i d d'
      cases d <;> cases d' <;> simp [SameLookup] at this <;> rfl

theorem parsers (h : Alike c c') : c.parsers = c'.parsers := by
  unfold Cmdline.parsers
  rw [h.styleParser, h.additional, h.long, h.disg, h.short, h.dash, h.slash, h.parseLong, h.parseDisguised, h.parseShort]

theorem setCase (h : Alike c c') : c.setCase = c'.setCase := by
  funext o
  unfold Cmdline.setCase
  rw [h.licase, h.sicase]

end Alike

/-- Parsers that try the same style parsers and look up options alike. -/
structure Agree (c c' : Cmdline) : Prop where
  pre : c.canonicalPrefix = c'.canonicalPrefix
  lookup : ∀ n, SameLookup (c.lookup n) (c'.lookup n)
  parsers : c.parsers = c'.parsers
  unreg : c.allowUnregistered = c'.allowUnregistered
  setCase : c.setCase = c'.setCase

theorem Alike.agree {c c' : Cmdline} (h : Alike c c') : Agree c c' := ⟨h.pre, h.lookup, h.parsers, h.unreg, h.setCase⟩

namespace Agree
variable {c c' : Cmdline}

theorem grab (h : Agree c c') (ps : List StyleParser) (n : Nat) (other : List Str) (opt : Opt) (orig : Str) :
    c.grab ps n other opt orig = c'.grab ps n other opt orig := by
  induction n generalizing other opt orig with
  | zero => rw [Cmdline.grab, Cmdline.grab]
  | succ n ih =>
    cases other with
    | nil => rw [Cmdline.grab, Cmdline.grab]
    | cons t ts =>
      rw [Cmdline.grab, Cmdline.grab, h.pre]
      cases lookahead ps [t] with
      | error f => rfl
      | ok os =>
        cases os with
        | nil => exact ih _ _ _
        | cons o os =>
          simp only
          have := h.lookup t
          cases h1 : c.lookup t <;> cases h2 : c'.lookup t <;> rw [h1, h2] at this
          · simp [SameLookup] at this; rw [this]
          · simp [SameLookup] at this
          · simp [SameLookup] at this
          · rename_i d d'
            cases d <;> cases d' <;> simp only [SameLookup] at this
            · exact ih _ _ _
            · rfl

theorem finishOption (h : Agree c c') (ps : List StyleParser) (opt : Opt) (other : List Str) :
    c.finishOption ps opt other = c'.finishOption ps opt other := by
  unfold Cmdline.finishOption
  by_cases hk : opt.stringKey = []
  · rw [if_pos hk, if_pos hk]
  · rw [if_neg hk, if_neg hk]
    simp only
    rw [h.pre, h.unreg]
    have := h.lookup opt.stringKey
    cases h1 : c.lookup opt.stringKey <;> cases h2 : c'.lookup opt.stringKey <;> rw [h1, h2] at this
    · simp [SameLookup] at this; rw [this]
    · simp [SameLookup] at this
    · simp [SameLookup] at this
    · rename_i d d'
      cases d <;> cases d' <;> simp only [SameLookup] at this
      simp only
      simp only
      rw [OptionDesc.shape_key this, OptionDesc.shape_min this, OptionDesc.shape_max this, h.grab]

theorem finishAll (h : Agree c c') (ps : List StyleParser) (os : List Opt) (args : List Str) :
    c.finishAll ps os args = c'.finishAll ps os args := by
  induction os with
  | nil => rw [Cmdline.finishAll, Cmdline.finishAll]
  | cons o os ih =>
    cases os with
    | nil => rw [Cmdline.finishAll, Cmdline.finishAll, h.finishOption]
    | cons o2 os => rw [finishAll.eq_3 c _ args o (o2 :: os) (by simp), finishAll.eq_3 c' _ args o (o2 :: os) (by simp), h.finishOption, ih]

theorem tryParsers (h : Agree c c') (all ps : List StyleParser) (args : List Str) : c.tryParsers all ps args = c'.tryParsers all ps args := by
  induction ps generalizing args with
  | nil => cases args <;> rw [Cmdline.tryParsers, Cmdline.tryParsers]
  | cons p ps ih =>
    rw [Cmdline.tryParsers, Cmdline.tryParsers]
    cases p args with
    | error f => rfl
    | ok r =>
      simp only
      rw [h.finishAll]
      cases c'.finishAll all r.1 r.2 with
      | error f => rfl
      | ok r => simp only; rw [ih]

theorem loop (h : Agree c c') (fuel : Nat) (args : List Str) : c.loop fuel args = c'.loop fuel args := by
  induction fuel generalizing args with
  | zero => cases args <;> rw [Cmdline.loop, Cmdline.loop]
  | succ fuel ih =>
    cases args with
    | nil => rw [Cmdline.loop, Cmdline.loop]
    | cons a args =>
      rw [Cmdline.loop, Cmdline.loop]
      have : c.step (a :: args) = c'.step (a :: args) := by
        unfold Cmdline.step
        rw [h.parsers, h.tryParsers]
      rw [this]
      cases c'.step (a :: args) with
      | error f => rfl
      | ok r => simp only; rw [ih]

theorem regroup (h : Agree c c') (k : Nat) (os : List Opt) : c.regroup k os = c'.regroup k os := by
  induction os generalizing k with
  | nil => rw [Cmdline.regroup, Cmdline.regroup]
  | cons o os ih =>
    cases k with
    | succ k => rw [Cmdline.regroup, Cmdline.regroup, ih]
    | zero =>
      rw [Cmdline.regroup, Cmdline.regroup]
      simp only
      by_cases hk : o.stringKey = []
      · rw [if_pos hk, if_pos hk, ih]
      · rw [if_neg hk, if_neg hk, h.pre]
        have := h.lookup o.stringKey
        cases h1 : c.lookup o.stringKey <;> cases h2 : c'.lookup o.stringKey <;> rw [h1, h2] at this
        · rename_i f f'
          simp only [SameLookup] at this
          subst this
          cases f <;> rfl
        · simp [SameLookup] at this
        · simp [SameLookup] at this
        · rename_i d d'
          cases d <;> cases d' <;> simp only [SameLookup] at this
          · simp only; rw [ih]
          · simp only
            rw [OptionDesc.shape_min this, OptionDesc.shape_max this, ih]
            split
            · cases absorb (takeLimit _ o.value.length) o os with
              | error f => rfl
              | ok r => simp only; rw [ih]
            · rfl

theorem finalize (h : Agree c c') (hp : c.positional = c'.positional) (os : List Opt) : c.finalize os = c'.finalize os := by
  unfold Cmdline.finalize applyPositional
  rw [h.regroup, h.setCase, hp]

theorem run (h : Agree c c') (hp : c.positional = c'.positional) (args : List Str) : c.run args = c'.run args := by
  unfold Cmdline.run runFuel
  rw [h.loop]
  cases c'.loop (args.length + 1) args with
  | error f => rfl
  | ok os => exact h.finalize hp os

end Agree

theorem Alike.run {c c' : Cmdline} (h : Alike c c') (hp : c.positional = c'.positional) (args : List Str) :
    c.run args = c'.run args := h.agree.run hp args

end Cmdline
end PO
