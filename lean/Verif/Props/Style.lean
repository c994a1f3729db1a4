import Verif.Model.Parsers
import Verif.Tests.Util
/-
C09: acceptance of command line styles.
-/
namespace PO

/-- Bit `i` of a style value. The numbers of the bits are those of cmdline.hpp: 0 long, 1 short,
2 dash, 3 slash, 4/5 long adjacent/next, 6/7 short adjacent/next, 12 disguised long. -/
def CoherentStyle (s : Nat) : Prop :=
  ((s.testBit 0 ∨ s.testBit 12) → (s.testBit 4 ∨ s.testBit 5)) ∧
  (s.testBit 1 → (s.testBit 6 ∨ s.testBit 7)) ∧
  (s.testBit 1 → (s.testBit 2 ∨ s.testBit 3))

theorem active_two_pow (s i : Nat) : active s (2 ^ i) = s.testBit i := by
  unfold active
  cases h : s.testBit i with
  | true =>
    have h1 : (s &&& 2 ^ i).testBit i = true := by simp [h]
    have : s &&& 2 ^ i ≠ 0 := fun h0 => by simp [h0] at h1
    simpa using this
  | false =>
    have : s &&& 2 ^ i = 0 := by
      apply Nat.eq_of_testBit_eq
      intro j
      by_cases hj : i = j
      · subst hj; simp [h]
      · simp [hj]
    simp [this]

theorem checkStyle_iff (s : Nat) : checkStyle s = .ok () ↔ CoherentStyle s := by
  have e0 : active s Style.allowLong = s.testBit 0 := active_two_pow s 0
  have e1 : active s Style.allowShort = s.testBit 1 := active_two_pow s 1
  have e2 : active s Style.allowDashForShort = s.testBit 2 := active_two_pow s 2
  have e3 : active s Style.allowSlashForShort = s.testBit 3 := active_two_pow s 3
  have e4 : active s Style.longAllowAdjacent = s.testBit 4 := active_two_pow s 4
  have e5 : active s Style.longAllowNext = s.testBit 5 := active_two_pow s 5
  have e6 : active s Style.shortAllowAdjacent = s.testBit 6 := active_two_pow s 6
  have e7 : active s Style.shortAllowNext = s.testBit 7 := active_two_pow s 7
  have e12 : active s Style.allowLongDisguise = s.testBit 12 := active_two_pow s 12
  unfold checkStyle CoherentStyle
  simp only [e0, e1, e2, e3, e4, e5, e6, e7, e12]
  cases s.testBit 0 <;> cases s.testBit 1 <;> cases s.testBit 2 <;> cases s.testBit 3 <;>
    cases s.testBit 4 <;> cases s.testBit 5 <;> cases s.testBit 6 <;> cases s.testBit 7 <;>
    cases s.testBit 12 <;> simp

theorem checkStyle_error (s : Nat) (f : Fail) (h : checkStyle s = .error f) :
    ∃ msg, f = .invalidStyle msg := by
  unfold checkStyle at h
  simp only at h
  split at h
  · injection h with h; exact ⟨_, h.symm⟩
  · split at h
    · injection h with h; exact ⟨_, h.symm⟩
    · split at h
      · injection h with h; exact ⟨_, h.symm⟩
      · cases h

/-- **C09.** Setting a style succeeds iff the style (the default one for 0) is coherent; it then is
the style in force and nothing else changes; otherwise `invalid_command_line_style` is thrown. -/
theorem C09_style_accepted (c : Cmdline) (s : Nat) :
    ((∃ c', c.setStyle s = .ok c') ↔ CoherentStyle (if s = 0 then Style.defaultStyle else s)) ∧
    (∀ c', c.setStyle s = .ok c' → c' = { c with style := if s = 0 then Style.defaultStyle else s }) ∧
    (∀ f, c.setStyle s = .error f → ∃ msg, f = .invalidStyle msg) := by
  rw [← checkStyle_iff]
  have hset : c.setStyle s = match checkStyle (if s = 0 then Style.defaultStyle else s) with
    | .error f => .error f
    | .ok () => .ok { c with style := if s = 0 then Style.defaultStyle else s } := rfl
  rw [hset]
  generalize (if s = 0 then Style.defaultStyle else s) = t
  have herr := checkStyle_error t
  generalize checkStyle t = r at herr
  cases r with
  | ok u => simp [eq_comm]
  | error f => simpa using herr

/-- The default style is coherent. -/
theorem C09_default_accepted : CoherentStyle Style.defaultStyle := by
  simp only [CoherentStyle]; decide

/-- `parse_command_line` refuses an incoherent style whatever the command line. -/
theorem C09_parse_refuses (argv : List Str) (desc : List OptionDesc) (s : Nat)
    (ext : Option (Str → Str × Str)) (h : ¬ CoherentStyle (if s = 0 then Style.defaultStyle else s)) :
    ∃ msg, parseCommandLine argv desc s ext = .error (.invalidStyle msg) := by
  unfold parseCommandLine
  have h9 := C09_style_accepted { desc, additional := ext } s
  cases hs : Cmdline.setStyle { desc, additional := ext } s with
  | ok c' => exact absurd (h9.1.1 ⟨c', hs⟩) h
  | error f =>
    obtain ⟨m, rfl⟩ := h9.2.2 f hs
    exact ⟨m, rfl⟩

example : CoherentStyle (Style.allowLong ||| Style.longAllowNext) ∧ ¬ CoherentStyle Style.allowLong ∧
    ¬ CoherentStyle (Style.allowShort ||| Style.shortAllowNext) := by
  simp only [CoherentStyle]; decide

end PO
