import Verif.Spec.ParserCalls
import Verif.Props.Rerun
/-
C136: a command line parser does what it was last told.
-/
namespace PO
open Spec ParserCalls

namespace ParserCalls

theorem last_snoc {α : Type} (f : Happening → Option α) (es : List Happening) (e : Happening) :
    lastAsked f (es ++ [e]) = match f e with | some a => some a | none => lastAsked f es := by
  unfold lastAsked
  rw [List.filterMap_append]
  cases h : f e <;> simp [h]

/-- Two calls of these kinds are told apart. -/
structure Inv (mem : Memory) (k : Constructor) (es : List Happening) (s : State) : Prop where
  style : s.obj.style = (lastAsked asksStyle es).getD Style.defaultStyle
  allow : s.obj.allowUnregistered = true ↔ ∃ r, Happening.did .allowUnregistered r ∈ es
  cmdDesc : s.obj.cmdDesc = lastAsked asksDesc es
  desc : s.obj.desc = match lastAsked asksDesc es with
    | some i => .to i
    | none => (construct k).desc
  positional : s.obj.positional = lastAsked asksPositional es
  additional : s.obj.additional = (lastAsked asksExtra es).getD none
  styleParser : s.obj.styleParser = (lastAsked asksStyleParser es).getD none
  descs : ∀ i, s.mem.desc i = (lastAsked (rewrites i) es).getD (mem.desc i)
  positionals : ∀ i, s.mem.positional i = (lastAsked (rewritesPositional i) es).getD (mem.positional i)

theorem inv_start (mem : Memory) (k : Constructor) : Inv mem k [] ⟨mem, construct k⟩ := by
  cases k <;> exact ⟨rfl, by simp [construct, init], rfl, rfl, rfl, rfl, rfl, fun _ => rfl, fun _ => rfl⟩

theorem inv_call {mem : Memory} {k : Constructor} {es : List Happening} {s : State} (h : Inv mem k es s) (c : Call) :
    Inv mem k (es ++ [.did c (perform s c).2]) (perform s c).1 := by
  obtain ⟨h1, h2, h3, h4, h5, h6, h7, h8, h9⟩ := h
  cases c with
  | style n =>
    unfold perform
    dsimp only
    cases hc : checkStyle (if n = 0 then Style.defaultStyle else n) with
    | error f =>
      constructor <;> simp only [last_snoc, asksStyle, asksDesc, asksPositional, asksExtra, asksStyleParser, rewrites, rewritesPositional] <;>
        first | assumption | simpa using h2
    | ok u =>
      constructor <;> simp only [last_snoc, asksStyle, asksDesc, asksPositional, asksExtra, asksStyleParser, rewrites, rewritesPositional] <;>
        first | assumption | rfl | simpa using h2
  | allowUnregistered =>
    constructor <;> simp only [last_snoc, asksStyle, asksDesc, asksPositional, asksExtra, asksStyleParser, rewrites, rewritesPositional, perform] <;>
        first | assumption | simp
  | changeDesc i ds =>
    constructor <;> simp only [last_snoc, asksStyle, asksDesc, asksPositional, asksExtra, asksStyleParser, rewrites, rewritesPositional, perform] <;>
        first | assumption | (intro j; by_cases hj : j = i <;> simp [hj, h8]) | simpa using h2
  | changePositional i ds =>
    constructor <;> simp only [last_snoc, asksStyle, asksDesc, asksPositional, asksExtra, asksStyleParser, rewrites, rewritesPositional, perform] <;>
        first | assumption | (intro j; by_cases hj : j = i <;> simp [hj, h9]) | simpa using h2
  | _ =>
    constructor <;> simp only [last_snoc, asksStyle, asksDesc, asksPositional, asksExtra, asksStyleParser, rewrites, rewritesPositional, perform] <;>
        first | assumption | rfl | simpa using h2

theorem inv_run {mem : Memory} {k : Constructor} {es : List Happening} {s : State} (h : Inv mem k es s) (r : Except Fail Result) (left : List Str) :
    Inv mem k (es ++ [.ran r]) { s with obj := { s.obj with args := left } } := by
  obtain ⟨h1, h2, h3, h4, h5, h6, h7, h8, h9⟩ := h
  constructor <;> simp only [last_snoc, asksStyle, asksDesc, asksPositional, asksExtra, asksStyleParser, rewrites, rewritesPositional] <;>
        first | assumption | simpa using h2

theorem inv {mem : Memory} {k : Constructor} {es : List Happening} {s0 s : State} (h0 : s0 = ⟨mem, construct k⟩) (h : Trace s0 es s) : Inv mem k es s := by
  induction h with
  | nil => subst h0; exact inv_start mem k
  | call c _ ih => exact inv_call ih c
  | run r left _ _ _ _ ih => exact inv_run ih r left

theorem askedFor {mem : Memory} {k : Constructor} {es : List Happening} {s : State} (h : Inv mem k es s) (i : Nat) : AskedFor mem es i (s.cmdline i) where
  style := h.style
  allowUnregistered := h.allow
  desc := h.descs i
  positional := by
    show s.obj.positional.map s.mem.positional = _
    rw [h.positional]
    congr 1
    funext j
    exact h.positionals j
  additional := h.additional
  styleParser := h.styleParser

end ParserCalls

/-! ### C136 -/

/-- **C136** Whatever calls, runs and changes of the descriptions came before: if a description has been named, `run` does what the
parser asked for last does with the tokens that are left, and the result points to the description named last. -/
theorem C136_run (mem : Memory) (k : Constructor) (es : List Happening) (s : State) (h : Trace ⟨mem, construct k⟩ es s) (i : Nat)
    (hi : lastAsked asksDesc es = some i) (c : Cmdline) (hc : AskedFor mem es i c) : s.run = answerOf c i (c.run s.obj.args) := by
  have hI := inv rfl h
  have hcc : s.cmdline i = c := by
    have hs := askedFor hI i
    have hb : (s.cmdline i).allowUnregistered = c.allowUnregistered := by
      rw [Bool.eq_iff_iff]
      exact hs.allowUnregistered.trans hc.allowUnregistered.symm
    have e1 := hs.style.trans hc.style.symm
    have e2 := hs.desc.trans hc.desc.symm
    have e3 := hs.positional.trans hc.positional.symm
    have e4 := hs.additional.trans hc.additional.symm
    have e5 := hs.styleParser.trans hc.styleParser.symm
    revert hb e1 e2 e3 e4 e5
    cases s.cmdline i
    cases c
    intro e0 e1 e2 e3 e4 e5
    dsimp only at e0 e1 e2 e3 e4 e5
    subst e0 e1 e2 e3 e4 e5
    rfl
  unfold State.run
  rw [hI.desc, hI.cmdDesc, hi]
  dsimp only
  rw [hcc]
  cases c.run s.obj.args <;> rfl

/-- There is always such a parser, and only one. -/
theorem C136_unique (mem : Memory) (es : List Happening) (i : Nat) (c c' : Cmdline) (hc : AskedFor mem es i c) (hc' : AskedFor mem es i c') : c = c' := by
  have hb : c.allowUnregistered = c'.allowUnregistered := by
    rw [Bool.eq_iff_iff]
    exact hc.allowUnregistered.trans hc'.allowUnregistered.symm
  have e1 := hc.style.trans hc'.style.symm
  have e2 := hc.desc.trans hc'.desc.symm
  have e3 := hc.positional.trans hc'.positional.symm
  have e4 := hc.additional.trans hc'.additional.symm
  have e5 := hc.styleParser.trans hc'.styleParser.symm
  cases c
  cases c'
  dsimp only at hb e1 e2 e3 e4 e5
  subst hb e1 e2 e3 e4 e5
  rfl

theorem C136_exists (mem : Memory) (k : Constructor) (es : List Happening) (s : State) (h : Trace ⟨mem, construct k⟩ es s) (i : Nat) :
    ∃ c, AskedFor mem es i c := ⟨_, askedFor (inv rfl h) i⟩

/-- If no description has been named, `run` is undefined: after construction from a vector it reads a pointer that was never set, after
construction from `argc` and `argv` it fails an assertion. -/
theorem C136_without (mem : Memory) (k : Constructor) (es : List Happening) (s : State) (h : Trace ⟨mem, construct k⟩ es s)
    (hi : lastAsked asksDesc es = none) : s.run = answerWithout k := by
  have hI := inv rfl h
  unfold State.run
  rw [hI.desc, hI.cmdDesc, hi]
  cases k <;> rfl

/-- A call is refused exactly if it asks for an incoherent style, and then it changes nothing. -/
theorem C136_refused (s : State) (c : Call) :
    ((perform s c).2 ≠ none ↔ ∃ n, c = .style n ∧ ¬ CoherentStyle (if n = 0 then Style.defaultStyle else n)) ∧
    ((perform s c).2 ≠ none → (perform s c).1 = s ∧ ∃ msg, (perform s c).2 = some (.invalidStyle msg)) := by
  cases c with
  | style n =>
    have h9 := C09_style_accepted { desc := [] } n
    unfold Cmdline.setStyle at h9
    unfold perform
    dsimp only at h9 ⊢
    cases hc : checkStyle (if n = 0 then Style.defaultStyle else n) with
    | error f =>
      rw [hc] at h9
      dsimp only at h9 ⊢
      have hn : ¬ CoherentStyle (if n = 0 then Style.defaultStyle else n) := fun h => by
        obtain ⟨c', h'⟩ := h9.1.2 h
        cases h'
      obtain ⟨m, hm⟩ := h9.2.2 f rfl
      exact ⟨⟨fun _ => ⟨n, rfl, hn⟩, fun _ h => nomatch h⟩, fun _ => ⟨rfl, m, by rw [hm]⟩⟩
    | ok u =>
      have hn := (checkStyle_iff _).1 hc
      refine ⟨⟨fun h => absurd rfl h, ?_⟩, fun h => absurd rfl h⟩
      rintro ⟨m, hm, hm'⟩
      cases hm
      exact absurd hn hm'
  | _ =>
    refine ⟨⟨fun h => absurd rfl h, ?_⟩, fun h => absurd rfl h⟩
    rintro ⟨m, hm, _⟩
    cases hm

/-- Until the first run, the tokens are those given at the beginning. -/
theorem C136_tokens (mem : Memory) (k : Constructor) (es : List Happening) (s : State) (h : Trace ⟨mem, construct k⟩ es s)
    (hn : ∀ r, Happening.ran r ∉ es) : s.obj.args = tokensGiven k := by
  generalize hs0 : (⟨mem, construct k⟩ : State) = s0 at h
  induction h with
  | nil => subst hs0; cases k <;> rfl
  | @call s' es c h ih =>
    have ih := ih fun r hr => hn r (List.mem_append_left _ hr)
    rw [← ih]
    cases c with
    | style n =>
      unfold perform
      dsimp only
      cases checkStyle (if n = 0 then Style.defaultStyle else n) <;> rfl
    | _ => rfl
  | run r left _ _ _ _ _ => exact absurd (List.mem_append_right _ (List.mem_singleton.2 rfl)) (hn r)

theorem ParserCalls.run_nil (c : Cmdline) : c.run [] = .ok [] := by
  unfold Cmdline.run Cmdline.runFuel Cmdline.loop
  simp only [Cmdline.finalize, Cmdline.regroup, Cmdline.assignPositions, Cmdline.applyPositional]
  cases c.positional <;> rfl

/-- After a run that returned, all later runs find nothing, whatever is called in between. -/
theorem C136_used_up (mem : Memory) (k : Constructor) (es : List Happening) (s : State) (h : Trace ⟨mem, construct k⟩ es s)
    (r : Result) (hr : Happening.ran (.ok r) ∈ es) : s.obj.args = [] ∧ ∃ r', s.run = .outcome (.ok r') ∧ r'.options = [] := by
  have key : s.obj.args = [] ∧ lastAsked asksDesc es ≠ none := by
    generalize hs0 : (⟨mem, construct k⟩ : State) = s0 at h
    induction h with
    | nil => cases hr
    | @call s' es c h ih =>
      have hm : Happening.ran (.ok r) ∈ es := by
        rcases List.mem_append.1 hr with h | h
        · exact h
        · cases List.mem_singleton.1 h
      have ih := ih hm
      refine ⟨?_, ?_⟩
      · rw [← ih.1]
        cases c with
        | style n =>
          unfold perform
          dsimp only
          cases checkStyle (if n = 0 then Style.defaultStyle else n) <;> rfl
        | _ => rfl
      · rw [last_snoc]
        cases hc : asksDesc (Happening.did c (perform s' c).2) with
        | none => exact ih.2
        | some i => exact fun h => nomatch h
    | @run s' es x left h hx hu hl ih =>
      have hI := inv hs0.symm h
      have hd : lastAsked asksDesc es ≠ none := by
        intro hn
        unfold State.run at hx
        rw [hI.desc, hI.cmdDesc, hn] at hx
        cases k <;> cases hx
      refine ⟨?_, by rw [last_snoc]; exact hd⟩
      show left = []
      cases x with
      | ok y => exact hl
      | error f =>
        have hm : Happening.ran (.ok r) ∈ es := by
          rcases List.mem_append.1 hr with h | h
          · exact h
          · cases List.mem_singleton.1 h
        have ih := ih hm
        exfalso
        obtain ⟨i, hi⟩ := Option.ne_none_iff_exists'.1 hd
        unfold State.run at hx
        rw [hI.desc, hI.cmdDesc, hi, ih.1] at hx
        dsimp only at hx
        rw [run_nil] at hx
        cases hx
  refine ⟨key.1, ?_⟩
  obtain ⟨i, hi⟩ := Option.ne_none_iff_exists'.1 key.2
  obtain ⟨c, hc⟩ := C136_exists mem k es s h i
  rw [C136_run mem k es s h i hi c hc, key.1, run_nil]
  exact ⟨_, rfl, rfl⟩

/-- After a run that threw, without a style parser of the program, the tokens that are left are those of C99. -/
theorem C136_left (s s' : State) (es : List Happening) (f : Fail) (i : Nat) (h : Trace s (es ++ [.ran (.error f)]) s') (hi : s'.obj.cmdDesc = some i)
    (hp : s'.obj.styleParser = none) : ∃ s'', Trace s es s'' ∧ s'.obj.args = ((s'.cmdline i).runSt s''.obj.args).2 := by
  generalize hes : es ++ [Happening.ran (.error f)] = es' at h
  cases h with
  | nil => simp at hes
  | call c h =>
    have := (List.append_inj' hes rfl).2
    cases this
  | @run s'' _ r left h hx hu hl =>
    have h1 := (List.append_inj' hes rfl).1
    have h2 := (List.append_inj' hes rfl).2
    cases h2
    subst h1
    exact ⟨s'', h, hl i hi hp⟩

/-- Calls of two different kinds can be swapped: the parser is the same, and so are the refusals. -/
theorem C136_swap (s : State) (c d : Call) (h : askKind c ≠ askKind d) :
    (perform (perform s c).1 d).1 = (perform (perform s d).1 c).1 ∧ (perform (perform s c).1 d).2 = (perform s d).2 := by
  cases c <;> cases d <;> first
    | exact absurd rfl h
    | exact ⟨rfl, rfl⟩
    | (unfold perform; dsimp only; split <;> simp_all)
    | skip
  · rename_i i ds j es
    refine ⟨?_, rfl⟩
    have hij : i ≠ j := fun e => h (by rw [e]; rfl)
    unfold perform
    dsimp only
    congr 2
    funext x
    by_cases h1 : x = j
    · subst h1
      rw [if_pos rfl, if_neg (fun e => hij e.symm)]
      exact (if_pos rfl).symm
    · rw [if_neg h1]
      by_cases h2 : x = i
      · subst h2
        exact (if_pos rfl).trans (if_pos rfl).symm
      · rw [if_neg h2, if_neg h2, if_neg h1]
  · rename_i i ds j es
    refine ⟨?_, rfl⟩
    have hij : i ≠ j := fun e => h (by rw [e]; rfl)
    unfold perform
    dsimp only
    congr 2
    funext x
    by_cases h1 : x = j
    · subst h1
      rw [if_pos rfl, if_neg (fun e => hij e.symm)]
      exact (if_pos rfl).symm
    · rw [if_neg h1]
      by_cases h2 : x = i
      · subst h2
        exact (if_pos rfl).trans (if_pos rfl).symm
      · rw [if_neg h2, if_neg h2, if_neg h1]

/-- `parse_command_line` is such a chain of calls. -/
theorem C136_parse_command_line (mem : Memory) (argv : List Str) (i n : Nat) (ext : Option (Str → Str × Str)) :
    let s0 : State := ⟨mem, construct (.argv argv)⟩
    let s1 := (perform s0 (.options i)).1
    let s2 := perform s1 (.style n)
    let s3 := (perform s2.1 (.extraParser ext)).1
    match s2.2, parseCommandLine argv (mem.desc i) n ext with
    | some f, p => p = .error f
    | none, .error f => s3.run = .outcome (.error f)
    | none, .ok p => s3.run = .outcome (.ok ⟨.to i, p.options, p.pre⟩) ∧ p.desc = s3.mem.desc i := by
  dsimp only
  unfold parseCommandLine Cmdline.setStyle
  dsimp only [perform, construct, init]
  cases hc : checkStyle (if n = 0 then Style.defaultStyle else n) with
  | error f => rfl
  | ok u =>
    dsimp only [Cmdline.parse, State.run, State.cmdline, Option.map]
    cases Cmdline.run { style := if n = 0 then Style.defaultStyle else n, desc := mem.desc i, additional := ext } (argTokens argv) with
    | error f => rfl
    | ok os => exact ⟨rfl, rfl⟩

namespace ParserCalls

/-- Two descriptions, with the options `all` and `name`. -/
def exampleMemory : Memory where
  desc i := if i = 0 then [Test.od "all" Test.unt] else [Test.od "name" (Test.sem Test.vstr)]
  positional _ := {}

/-- The calls, one after the other. -/
def performAll (s : State) (cs : List Call) : State := cs.foldl (fun s c => (perform s c).1) s

def optionsOf : Answer → Option (List Str)
  | .outcome (.ok r) => some (r.options.map (·.stringKey))
  | _ => none

end ParserCalls

/-- The last description counts; so does what is added to it before `run`; a refused style changes nothing; without a description both
constructors lead to undefined behaviour. -/
example :
    optionsOf (performAll ⟨exampleMemory, construct (.vector [Test.L "--all"])⟩ [.options 1, .style 1, .options 0]).run = some [Test.L "all"] ∧
    optionsOf (performAll ⟨exampleMemory, construct (.argv [Test.L "prog", Test.L "--all"])⟩ [.options 0, .options 1]).run = none ∧
    optionsOf (performAll ⟨exampleMemory, construct (.argv [Test.L "prog", Test.L "--all"])⟩
      [.options 1, .changeDesc 1 (exampleMemory.desc 0)]).run = some [Test.L "all"] ∧
    (perform ⟨exampleMemory, construct (.vector [])⟩ (.style 1)).2 = some (.invalidStyle msgLong) ∧
    (performAll ⟨exampleMemory, construct (.vector [])⟩ [.allowUnregistered]).run = .indeterminate ∧
    (performAll ⟨exampleMemory, construct (.argv [])⟩ [.allowUnregistered]).run = .assertion := by
  exact ⟨by rfl, by rfl, by rfl, by rfl, by rfl, by rfl⟩

/-- A program that runs the parser twice. -/
example : ∃ s r, Trace ⟨exampleMemory, construct (.vector [Test.L "--all"])⟩ [.did (.options 0) none, .ran (.ok r)] s ∧
    r.description = .to 0 ∧ r.options.length = 1 ∧ optionsOf s.run = some [] := by
  have h0 := Trace.nil ⟨exampleMemory, construct (.vector [Test.L "--all"])⟩
  have h1 := Trace.call (.options 0) h0
  have hx : ∃ r, (perform ⟨exampleMemory, construct (.vector [Test.L "--all"])⟩ (.options 0)).1.run = .outcome (.ok r) ∧
      r.description = .to 0 ∧ r.options.length = 1 := ⟨_, rfl, rfl, rfl⟩
  obtain ⟨r, hr, hd, ho⟩ := hx
  exact ⟨_, r, Trace.run (.ok r) [] h1 hr (fun u h => nomatch h) rfl, hd, ho, rfl⟩

end PO
