import Verif.Props.Several
import Verif.Props.Extra
/-
C105 (the program of example/response_file.cpp) and C106: which options were given.
-/
namespace PO
open Spec

/-- The sources `main` of example/response_file.cpp stores, if it does not end with an exception: the command line, and then the words of the
file it names. -/
theorem response_sources {desc : List OptionDesc} {args : List Str} {file : Str → Option Str} {m : VarMap}
    (h : Example.responseMain desc args file = (m, none)) :
    ∃ p, ({ desc, additional := some Example.atOption } : Cmdline).parse args = .ok p ∧
      (Stores {} [(p, false)] m ∨
        ∃ name text q, file name = some text ∧ ({ desc } : Cmdline).parse (Example.words [] text) = .ok q ∧ Stores {} [(p, false), (q, false)] m) := by
  unfold Example.responseMain at h
  cases hp : ({ desc, additional := some Example.atOption } : Cmdline).parse args with
  | error f => rw [hp] at h; cases h
  | ok p =>
    refine ⟨p, rfl, ?_⟩
    rw [hp] at h
    simp only at h
    cases hs : store p {} with
    | mk m1 e =>
      rw [hs] at h
      cases e with
      | some f => cases h
      | none =>
        simp only at h
        have one : Stores {} [(p, false)] m1 := .cons hs (.nil _)
        split at h
        · cases h; exact .inl one
        · split at h
          · split at h
            · cases h; exact .inl one
            · rename_i text hf
              split at h
              · cases h
              · rename_i q hq
                exact .inr ⟨_, text, q, hf, hq, .cons hs (.cons h (.nil _))⟩
          · cases h

/-- **C105, the program.** What the command line says of an option that does not compose stands, whatever is in the response file. -/
theorem C105_command_line_stands (desc : List OptionDesc) (args : List Str) (file : Str → Option Str) (m : VarMap)
    (h : Example.responseMain desc args file = (m, none)) (p : Parsed)
    (hp : ({ desc, additional := some Example.atOption } : Cmdline).parse args = .ok p) (name : Str) (hm : Mentions p.options name) (d : OptionDesc)
    (hd : candidates p.desc name = [d]) (hc : d.semantic.isComposing = false) :
    ∃ a, parseAll d.semantic false none ((occurrences p.options name).map (·.value)) = .ok a ∧
      m.map.get? name = some { v := a, defaulted := false, semantic := some d.semantic } := by
  obtain ⟨p', hp', hst⟩ := response_sources h
  rw [hp] at hp'; cases hp'
  have : ∃ rest, Stores {} ((p, false) :: rest) m := by
    rcases hst with h1 | ⟨_, _, q, _, _, h1⟩
    · exact ⟨_, h1⟩
    · exact ⟨_, h1⟩
  obtain ⟨rest, h1⟩ := this
  obtain ⟨r, h2, h3⟩ := C104_value _ m h1 name
  cases h2 with
  | silent hm' => exact absurd hm hm'
  | adds _ hd' _ hc' =>
    rw [hd] at hd'; cases hd'
    rw [hc] at hc'; cases hc'
  | settles _ hd' ha _ =>
    rw [hd] at hd'; cases hd'
    exact ⟨_, ha, h3⟩

/-! ### C106 -/

theorem settled_some {name : Str} {srcs : List (Parsed × Bool)} {r r'} (h : Settled name srcs r r') :
    r'.isSome = true ↔ r.isSome = true ∨ ∃ q ∈ srcs, Mentions q.1.options name := by
  induction h with
  | done r => simp
  | silent hm _ ih =>
    rw [ih]
    simp [hm]
  | adds hm _ _ _ _ ih => rw [ih]; simp [hm]
  | settles hm => simp [hm]

/-- **C106.** After any sources were stored, `vm.count(name) && !vm[name].defaulted()` holds exactly if one of them mentions the name. -/
theorem C106_given_iff (srcs : List (Parsed × Bool)) (m : VarMap) (h : Stores {} srcs m) (name : Str) :
    Example.isGiven m name = true ↔ ∃ q ∈ srcs, Mentions q.1.options name := by
  obtain ⟨r, h1, h2⟩ := C104_value srcs m h name
  have h3 := settled_some h1
  simp only [Option.isSome_none, Bool.false_eq_true, false_or] at h3
  rw [← h3]
  unfold Example.isGiven VarMap.get
  rw [h2]
  rcases r with _ | ⟨s, a⟩
  · rcases defaultFrom srcs name with _ | ⟨s, a⟩ <;> simp [record]
  · simp [record]

/-- `conflicting_options` throws exactly if both options were given, defaults not counted; -/
theorem C106_conflicting (srcs : List (Parsed × Bool)) (m : VarMap) (h : Stores {} srcs m) (opt1 opt2 : Str) :
    Example.conflicting m opt1 opt2 = true ↔ (∃ q ∈ srcs, Mentions q.1.options opt1) ∧ ∃ q ∈ srcs, Mentions q.1.options opt2 := by
  unfold Example.conflicting
  rw [Bool.and_eq_true, C106_given_iff srcs m h, C106_given_iff srcs m h]

/-- `option_dependency` exactly if the one was given and the other was not. -/
theorem C106_dependency (srcs : List (Parsed × Bool)) (m : VarMap) (h : Stores {} srcs m) (forWhat required : Str) :
    Example.dependencyMissing m forWhat required = true ↔
      (∃ q ∈ srcs, Mentions q.1.options forWhat) ∧ ∀ q ∈ srcs, ¬ Mentions q.1.options required := by
  have : ((m.map.get? required).isNone || (m.get required).defaulted) = !Example.isGiven m required := by
    unfold Example.isGiven
    cases m.map.get? required <;> simp
  unfold Example.dependencyMissing
  rw [this, Bool.and_eq_true, C106_given_iff srcs m h, Bool.not_eq_true', ← Bool.not_eq_true, C106_given_iff srcs m h]
  refine and_congr_right fun _ => ⟨fun hn q hq hm => hn ⟨q, hq, hm⟩, ?_⟩
  rintro hn ⟨q, hq, hm⟩
  exact hn q hq hm

/-- If a store fails and the program goes on with the map, a name counts as given although the only sources stored do not mention it: the failed
one left an entry without a value. -/
theorem C106_failed_store : ∃ (bad good : Parsed) (name : Str), (store bad {}).2 ≠ none ∧ (store good (store bad {}).1).2 = none ∧
    ¬ Mentions good.options name ∧ Example.isGiven (store good (store bad {}).1).1 name = true ∧
    ((store good (store bad {}).1).1.get name).v = none := by
  refine ⟨{ desc := Ex.descs, options := [Ex.o "level" ["a", "b"]] }, { desc := Ex.descs, options := [] }, Test.L "level",
    by decide, by decide, ?_, by decide, by decide⟩
  simp [Mentions]

/-! Options of example/real.cpp. `two` has a default, as `bool_switch` gives it (text here, so that the examples evaluate). -/

def Ex.realDesc : List OptionDesc :=
  [Test.od "output,o" (Test.sem Test.vstr), Test.od "two,t" (Test.sem { Test.vstr with dflt := some (.scalar (.str (Test.L "0")), Test.L "0") }),
   Test.od "depends,d" (Test.sem Test.vstr), Test.od "mainpackage,p" (Test.sem Test.vstr)]
def Ex.real (args : List Str) : Parsed := Ex.got (({ desc := Ex.realDesc } : Cmdline).parse args)
def Ex.realMap (args : List Str) : VarMap := (store (Ex.real args) {}).1

/-- `two` is in the map, but was not given: no conflict. -/
example : Stores {} [(Ex.real [Test.L "-ox", Test.L "-d", Test.L "y"], false)] (Ex.realMap [Test.L "-ox", Test.L "-d", Test.L "y"]) ∧
    ((Ex.realMap [Test.L "-ox", Test.L "-d", Test.L "y"]).map.get? (Test.L "two")).isSome = true ∧
    Example.conflicting (Ex.realMap [Test.L "-ox", Test.L "-d", Test.L "y"]) (Test.L "output") (Test.L "two") = false ∧
    Example.dependencyMissing (Ex.realMap [Test.L "-ox", Test.L "-d", Test.L "y"]) (Test.L "depends") (Test.L "mainpackage") = true :=
  ⟨.cons rfl (.nil _), by rfl, by rfl, by rfl⟩

example : Stores {} [(Ex.real [Test.L "-ox", Test.L "--two=1"], false)] (Ex.realMap [Test.L "-ox", Test.L "--two=1"]) ∧
    Example.conflicting (Ex.realMap [Test.L "-ox", Test.L "--two=1"]) (Test.L "output") (Test.L "two") = true := ⟨.cons rfl (.nil _), by rfl⟩

end PO
