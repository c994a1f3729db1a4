import Verif.Props.Grammar
import Verif.Props.Split
/-
C84: settings written on a command line are read back.
-/
namespace PO
open Spec

/-- A setting as written on the command line: `--name=value` or `--name`. -/
def written (s : Str × Option Str) : Str :=
  '-' :: '-' :: s.1 ++ match s.2 with
    | some v => '=' :: v
    | none => []

/-- A setting the command line can express: a declared option under the name it is reported by, which takes a value, or none. -/
structure Expressible (c : Cmdline) (s : Str × Option Str) : Prop where
  name : s.1 ≠ [] ∧ '=' ∉ s.1
  value : s.2 ≠ some []
  option : ∃ d, Denotes c s.1 d ∧ reportedKey d s.1 = s.1 ∧
    match s.2 with
    | some _ => d.semantic.minTokens ≤ 1 ∧ 1 ≤ d.semantic.maxTokens
    | none => d.semantic.minTokens = 0

/-- The option a setting is read as. -/
def settingOption (c : Cmdline) (s : Str × Option Str) : Opt :=
  { stringKey := s.1, value := s.2.toList, originalTokens := [written s], caseInsensitive := caseFlag c s.1 }

/-- The positional argument with number `i`. -/
def argumentOption (c : Cmdline) (name : Nat → Str) (i : Nat) (t : Str) : Opt :=
  { stringKey := name i, positionKey := i, value := [t], originalTokens := [t], caseInsensitive := caseFlag c (name i) }

/-- The names of the first `n` positional arguments. -/
def ArgumentNames (c : Cmdline) (name : Nat → Str) (n : Nat) : Prop :=
  ∀ i, i < n → match c.positional with
    | none => name i = []
    | some p => p.names[i]? = some (name i) ∨ p.names.length ≤ i ∧ p.trailing ≠ [] ∧ name i = p.trailing

namespace Cmdline

variable {c : Cmdline}

theorem written_item (ha : c.additional = none) (hl : Enabled c Style.allowLong) {s : Str × Option Str} (h : Expressible c s) :
    Spells c (written s) [⟨s.1, s.2.toList, [written s]⟩] := by
  have hu : Unclaimed c (written s) := by intro f hf; rw [ha] at hf; cases hf
  obtain ⟨n, v⟩ := s
  cases v with
  | none => exact .long n hu hl (by simp [written]) h.name.2 h.name.1
  | some v => exact .longEq n v hu hl rfl h.name.2 fun e => h.value (by rw [e])

theorem written_completes {s : Str × Option Str} (h : Expressible c s) :
    Completes c ⟨s.1, s.2.toList, [written s]⟩ [] { stringKey := s.1, value := s.2.toList, originalTokens := [written s] } := by
  obtain ⟨d, hd, hk, hv⟩ := h.option
  have := Completes.known (c := c) (i := ⟨s.1, s.2.toList, [written s]⟩) d [] h.name.1 hd ?_ (by simp) ?_
  · simpa only [hk, List.append_nil] using this
  · obtain ⟨n, v⟩ := s
    cases v <;> simp at hv ⊢ <;> omega
  · obtain ⟨n, v⟩ := s
    cases v
    · intro _; rfl
    · simp at hv ⊢
      omega

theorem written_reads (ha : c.additional = none) (hl : Enabled c Style.allowLong) (settings : List (Str × Option Str))
    (h : ∀ s ∈ settings, Expressible c s) {rest : List Str} {os : List Opt} (hr : Reads c rest os) :
    Reads c (settings.map written ++ rest)
      ((settings.map fun s => { stringKey := s.1, value := s.2.toList, originalTokens := [written s] }) ++ os) := by
  induction settings with
  | nil => exact hr
  | cons s settings ih =>
    have h1 := h s (by simp)
    have := Reads.option (taken := []) (written_item ha hl h1) (.one (written_completes h1)) (ih fun q hq => h q (by simp [hq]))
    exact this

theorem gathers_positional {os : List Opt} (h : ∀ o ∈ os, o.stringKey = []) : Gathers c os os := by
  induction os with
  | nil => exact .nil
  | cons o os ih => exact .positional (h o (by simp)) (ih fun q hq => h q (by simp [hq]))

theorem written_gathers (settings : List (Str × Option Str)) (h : ∀ s ∈ settings, Expressible c s) {os : List Opt} (hl : ∀ o ∈ os, ¬ Spec.Loose o)
    (hg : Gathers c os os) :
    Gathers c ((settings.map fun s => { stringKey := s.1, value := s.2.toList, originalTokens := [written s] }) ++ os)
      ((settings.map fun s => { stringKey := s.1, value := s.2.toList, originalTokens := [written s] }) ++ os) := by
  induction settings with
  | nil => exact hg
  | cons s settings ih =>
    have h1 := h s (by simp)
    have ih := ih fun q hq => h q (by simp [hq])
    obtain ⟨d, hd, hk, hv⟩ := h1.option
    rw [List.map_cons, List.cons_append]
    by_cases hr : HasRoom d { stringKey := s.1, value := s.2.toList, originalTokens := [written s] }
    · have := Gathers.take (c := c) (o := { stringKey := s.1, value := s.2.toList, originalTokens := [written s] }) (ps := []) d h1.name.1 hd hr
        (by simp) (.inr ⟨by rw [List.length_nil, Nat.zero_add]; exact hr.2, ?_⟩) ih
      · simpa using this
      · intro p hp
        cases settings with
        | nil => exact hl p (List.mem_of_head? hp)
        | cons q settings =>
          simp at hp
          rw [← hp]
          exact fun hh => (h q (by simp)).name.1 hh.1
    · exact .keep h1.name.1 (.inr ⟨d, hd, hr⟩) ih

theorem labels_arguments {name : Nat → Str} (ps : List Str) (n : Nat) (hn : ∀ i, n ≤ i → i < n + ps.length → match c.positional with
      | none => name i = []
      | some p => p.names[i]? = some (name i) ∨ p.names.length ≤ i ∧ p.trailing ≠ [] ∧ name i = p.trailing) :
    Labels c n (ps.map fun t => { value := [t], originalTokens := [t], positionKey := intMax })
      (ps.mapIdx fun i t => argumentOption c name (n + i) t) := by
  induction ps generalizing n with
  | nil => exact .nil
  | cons t ps ih =>
    rw [List.map_cons, List.mapIdx_cons]
    refine Labels.positional (name n) rfl (hn n (Nat.le_refl _) (by simp)) ?_
    have := ih (n + 1) fun i h1 h2 => hn i (by omega) (by rw [List.length_cons]; omega)
    simpa only [Nat.add_assoc, Nat.add_comm 1] using this

theorem written_labels (settings : List (Str × Option Str)) (h : ∀ s ∈ settings, Expressible c s) {n : Nat} {os res : List Opt} (hr : Labels c n os res) :
    Labels c n ((settings.map fun s => { stringKey := s.1, value := s.2.toList, originalTokens := [written s] }) ++ os)
      (settings.map (settingOption c) ++ res) := by
  induction settings with
  | nil => exact hr
  | cons s settings ih => exact .named (h s (by simp)).name.1 (ih fun q hq => h q (by simp [hq]))

end Cmdline

/-- **C84.** Settings written as `--name=value` or `--name`, followed by `--` and any tokens at all, are read as exactly these settings
and these positional arguments. -/
theorem C84_round_trip (c : Cmdline) (hs : c.styleParser = none) (ha : c.additional = none) (hl : Enabled c Style.allowLong)
    (hne : ∀ d ∈ c.desc, ∀ name, name ≠ [] → reportedKey d name ≠ []) (settings : List (Str × Option Str))
    (h : ∀ s ∈ settings, Expressible c s) (ps : List Str) (name : Nat → Str) (hn : ArgumentNames c name ps.length)
    (hlen : settings.length + 1 + ps.length < 2147483648) :
    c.run (settings.map written ++ ['-', '-'] :: ps) = .ok (settings.map (settingOption c) ++ ps.mapIdx (argumentOption c name)) := by
  refine (C61_grammar c hs hne _ (by simp; omega) _).2 ⟨_, _,
    Cmdline.written_reads ha hl settings h (.terminator (by intro f hf; rw [ha] at hf; cases hf)),
    Cmdline.written_gathers settings h ?_ (Cmdline.gathers_positional ?_), Cmdline.written_labels settings h ?_⟩
  · intro o ho hh
    obtain ⟨t, _, rfl⟩ := List.mem_map.1 ho
    exact hh.2 rfl
  · intro o ho
    obtain ⟨t, _, rfl⟩ := List.mem_map.1 ho
    rfl
  · have := Cmdline.labels_arguments (c := c) (name := name) ps 0 fun i _ hi => hn i (by omega)
    simpa only [Nat.zero_add] using this

/-- The same without positional arguments: no terminator is needed. -/
theorem C84_settings (c : Cmdline) (hs : c.styleParser = none) (ha : c.additional = none) (hl : Enabled c Style.allowLong)
    (hne : ∀ d ∈ c.desc, ∀ name, name ≠ [] → reportedKey d name ≠ []) (settings : List (Str × Option Str))
    (h : ∀ s ∈ settings, Expressible c s) (hlen : settings.length < 2147483648) :
    c.run (settings.map written) = .ok (settings.map (settingOption c)) := by
  have := (C61_grammar c hs hne (settings.map written ++ []) (by simp; omega) _).2 ⟨_, _,
    Cmdline.written_reads ha hl settings h .nil, Cmdline.written_gathers settings h (by simp) .nil, Cmdline.written_labels settings h .nil⟩
  simpa only [List.append_nil] using this

/-- With `split_winmain`: a program can pass any settings and arguments to another one in a single string. -/
theorem C84_one_string (c : Cmdline) (hs : c.styleParser = none) (ha : c.additional = none) (hl : Enabled c Style.allowLong)
    (hne : ∀ d ∈ c.desc, ∀ name, name ≠ [] → reportedKey d name ≠ []) (settings : List (Str × Option Str))
    (h : ∀ s ∈ settings, Expressible c s) (ps : List Str) (name : Nat → Str) (hn : ArgumentNames c name ps.length)
    (hlen : settings.length + 1 + ps.length < 2147483648) :
    c.run (splitWinmain (joinBy ' ' ((settings.map written ++ ['-', '-'] :: ps).map winQuote))) =
      .ok (settings.map (settingOption c) ++ ps.mapIdx (argumentOption c name)) := by
  rw [C51_winmain_round_trip]
  exact C84_round_trip c hs ha hl hne settings h ps name hn hlen

/-- A switch, an option with an optional value and one that takes many. -/
def roundTripExample : Cmdline :=
  { desc := [Test.od "verbose,v" Test.unt, Test.od "level" (Test.sem { Test.vstr with implicit := some (.scalar (.str (Test.L "i")), Test.L "i") }),
      Test.od "in" (Test.sem { Test.vvec with multitoken := true })]
    positional := some { names := [Test.L "first"], trailing := Test.L "rest" } }

example : ∃ r, roundTripExample.run [Test.L "--in=--x", Test.L "--verbose", Test.L "--level", Test.L "--in=a b=", Test.L "--", Test.L "--", Test.L "--verbose"] = .ok r ∧
    r.map (fun o => (o.stringKey, o.value)) = [(Test.L "in", [Test.L "--x"]), (Test.L "verbose", []), (Test.L "level", []), (Test.L "in", [Test.L "a b="]),
      (Test.L "first", [Test.L "--"]), (Test.L "rest", [Test.L "--verbose"])] := by
  have hh := C84_round_trip roundTripExample rfl rfl (by unfold Enabled; decide)
    (keys_nonempty _ (by intro d hd; simp only [roundTripExample, List.mem_cons, List.not_mem_nil, or_false] at hd; rcases hd with rfl | rfl | rfl <;> decide))
    [(Test.L "in", some (Test.L "--x")), (Test.L "verbose", none), (Test.L "level", none), (Test.L "in", some (Test.L "a b="))] (by
      intro s hs
      simp only [List.mem_cons, List.not_mem_nil, or_false] at hs
      rcases hs with rfl | rfl | rfl | rfl <;> exact ⟨by decide, by decide, _, .inl rfl, rfl, by decide⟩)
    [Test.L "--", Test.L "--verbose"] (fun i => if i = 0 then Test.L "first" else Test.L "rest") (by
      intro i hi
      match i, hi with
      | 0, _ => exact .inl rfl
      | 1, _ => exact .inr ⟨by decide, by decide, rfl⟩) (by decide)
  exact ⟨_, hh, rfl⟩

/-- Without the terminator, an option that may take more values takes the positional arguments: the settings come back differently. -/
example : (roundTripExample.run [Test.L "--level", Test.L "x"]).map (·.map fun o => (o.stringKey, o.value)) =
    .ok [(Test.L "level", [Test.L "x"])] := by rfl

end PO
