import Verif.Props.Forward
import Verif.Props.RoundTrip
/-
C90: one command line for two programs.
-/
namespace PO
open Spec

/-- A word of a command line that two programs read: a setting for the first one, one for the second one, or an argument. -/
inductive Word
  | first (s : Str × Option Str)
  | second (s : Str × Option Str)
  | argument (t : Str)

/-- As written. -/
def Word.token : Word → Str
  | .first s => written s
  | .second s => written s
  | .argument t => t

/-- The settings for the first program. -/
def firsts : List Word → List (Str × Option Str)
  | [] => []
  | .first s :: ws => s :: firsts ws
  | _ :: ws => firsts ws

/-- The settings for the second program. -/
def seconds : List Word → List (Str × Option Str)
  | [] => []
  | .second s :: ws => s :: seconds ws
  | _ :: ws => seconds ws

/-- The arguments. -/
def arguments : List Word → List Str
  | [] => []
  | .argument t :: ws => t :: arguments ws
  | _ :: ws => arguments ws

/-- The words that are not for the first program. -/
def others : List Word → List Word
  | [] => []
  | .first _ :: ws => others ws
  | w :: ws => w :: others ws

/-- A setting that is complete as written: its option takes no argument that may follow. -/
def Complete (c : Cmdline) (s : Str × Option Str) : Prop :=
  ∀ d, Denotes c s.1 d → d.semantic.minTokens < d.semantic.maxTokens → d.semantic.maxTokens ≤ s.2.toList.length

/-- A word that both programs, with these command lines, can tell apart. -/
def Word.Clear (c1 c2 : Cmdline) : Word → Prop
  | .first s => Expressible c1 s ∧ Complete c1 s
  | .second s => Unknown c1 s.1 ∧ Expressible c2 s ∧ Complete c2 s
  | .argument t => Plain c1 t ∧ Plain c2 t ∧ t ≠ ['-', '-']

namespace Cmdline

/-- What a setting is read as, before the case flag is set. -/
def plainSetting (u : Bool) (s : Str × Option Str) : Opt := { stringKey := s.1, value := s.2.toList, originalTokens := [written s], unregistered := u }

/-- What an argument is read as, before it is named. -/
def plainArgument (t : Str) : Opt := { value := [t], originalTokens := [t] }

/-- What the first program reads. -/
def firstRead : Word → Opt
  | .first s => plainSetting false s
  | .second s => plainSetting true s
  | .argument t => plainArgument t

/-- What the second program reads. -/
def secondRead : Word → Opt
  | .first s => plainSetting false s
  | .second s => plainSetting false s
  | .argument t => plainArgument t

variable {c c1 c2 : Cmdline}

theorem unknown_item (ha : c.additional = none) (hl : Enabled c Style.allowLong) {s : Str × Option Str} (h0 : s.1 ≠ [] ∧ '=' ∉ s.1) (hv : s.2 ≠ some []) :
    Spells c (written s) [⟨s.1, s.2.toList, [written s]⟩] := by
  have hu : Unclaimed c (written s) := by intro f hf; rw [ha] at hf; cases hf
  obtain ⟨n, v⟩ := s
  cases v with
  | none => exact .long n hu hl (by simp [written]) h0.2 h0.1
  | some v => exact .longEq n v hu hl rfl h0.2 fun e => hv (by rw [e])

theorem first_reads (ha : c1.additional = none) (hl : Enabled c1 Style.allowLong) (hu : c1.allowUnregistered = true) (ws : List Word)
    (h : ∀ w ∈ ws, w.Clear c1 c2) : Reads c1 (ws.map Word.token) (ws.map firstRead) := by
  induction ws with
  | nil => exact .nil
  | cons w ws ih =>
    have ih := ih fun q hq => h q (by simp [hq])
    have hw := h w (by simp)
    cases w with
    | first s =>
      have := Reads.option (taken := []) (written_item ha hl hw.1) (.one (written_completes hw.1)) ih
      exact this
    | second s =>
      have := Reads.option (taken := []) (unknown_item ha hl hw.2.1.name hw.2.1.value) (.one (.unknown hw.2.1.name.1 hw.1 hu)) ih
      exact this
    | argument t => exact .plain hw.1 hw.2.2 ih

theorem second_reads (ha : c2.additional = none) (hl : Enabled c2 Style.allowLong) (ws : List Word)
    (h : ∀ w ∈ ws, w.Clear c1 c2) : Reads c2 ((others ws).map Word.token) ((others ws).map secondRead) := by
  induction ws with
  | nil => exact .nil
  | cons w ws ih =>
    have ih := ih fun q hq => h q (by simp [hq])
    have hw := h w (by simp)
    cases w with
    | first s => exact ih
    | second s =>
      have := Reads.option (taken := []) (written_item ha hl hw.2.1) (.one (written_completes hw.2.1)) ih
      exact this
    | argument t => exact .plain hw.2.1 hw.2.2 ih

theorem complete_keep {s : Str × Option Str} (he : Expressible c s) (hc : Complete c s) (u : Bool) :
    ∃ d, Denotes c (plainSetting u s).stringKey d ∧ ¬ HasRoom d (plainSetting u s) := by
  obtain ⟨d, hd, _⟩ := he.option
  exact ⟨d, hd, fun hr => absurd hr.2 (Nat.not_lt.2 (hc d hd hr.1))⟩

theorem first_gathers (ws : List Word) (h : ∀ w ∈ ws, w.Clear c1 c2) : Gathers c1 (ws.map firstRead) (ws.map firstRead) := by
  induction ws with
  | nil => exact .nil
  | cons w ws ih =>
    have ih := ih fun q hq => h q (by simp [hq])
    have hw := h w (by simp)
    cases w with
    | first s => exact .keep hw.1.name.1 (.inr (complete_keep hw.1 hw.2 _)) ih
    | second s => exact .keep hw.2.1.name.1 (.inl hw.1) ih
    | argument t => exact .positional rfl ih

theorem second_gathers (ws : List Word) (h : ∀ w ∈ ws, w.Clear c1 c2) : Gathers c2 ((others ws).map secondRead) ((others ws).map secondRead) := by
  induction ws with
  | nil => exact .nil
  | cons w ws ih =>
    have ih := ih fun q hq => h q (by simp [hq])
    have hw := h w (by simp)
    cases w with
    | first s => exact ih
    | second s => exact .keep hw.2.1.name.1 (.inr (complete_keep hw.2.1 hw.2.2 _)) ih
    | argument t => exact .positional rfl ih

/-- What the first program gets, the arguments numbered from `n` on. -/
def firstResult (c : Cmdline) : Nat → List Word → List Opt
  | _, [] => []
  | n, .first s :: ws => settingOption c s :: firstResult c n ws
  | n, .second s :: ws => { settingOption c s with unregistered := true } :: firstResult c n ws
  | n, .argument t :: ws => argumentOption c (fun _ => []) n t :: firstResult c (n + 1) ws

/-- What the second program gets, the arguments numbered from `n` on. -/
def secondResult (c : Cmdline) (name : Nat → Str) : Nat → List Word → List Opt
  | _, [] => []
  | n, .first _ :: ws => secondResult c name n ws
  | n, .second s :: ws => settingOption c s :: secondResult c name n ws
  | n, .argument t :: ws => argumentOption c name n t :: secondResult c name (n + 1) ws

theorem first_labels (hp : c1.positional = none) (ws : List Word) (h : ∀ w ∈ ws, w.Clear c1 c2) :
    ∀ n, Labels c1 n (ws.map firstRead) (firstResult c1 n ws) := by
  induction ws with
  | nil => intro n; exact .nil
  | cons w ws ih =>
    intro n
    have ih := ih fun q hq => h q (by simp [hq])
    have hw := h w (by simp)
    cases w with
    | first s => exact .named hw.1.name.1 (ih n)
    | second s => exact .named (o := plainSetting true s) hw.2.1.name.1 (ih n)
    | argument t => exact .positional [] rfl (by rw [hp]) (ih (n + 1))

theorem second_labels {name : Nat → Str} (ws : List Word) (h : ∀ w ∈ ws, w.Clear c1 c2) :
    ∀ n, (∀ i, n ≤ i → i < n + (arguments ws).length → match c2.positional with
      | none => name i = []
      | some p => p.names[i]? = some (name i) ∨ p.names.length ≤ i ∧ p.trailing ≠ [] ∧ name i = p.trailing) →
      Labels c2 n ((others ws).map secondRead) (secondResult c2 name n ws) := by
  induction ws with
  | nil => intro n _; exact .nil
  | cons w ws ih =>
    intro n hn
    have ih := ih fun q hq => h q (by simp [hq])
    have hw := h w (by simp)
    cases w with
    | first s => exact ih n hn
    | second s => exact .named (o := plainSetting false s) hw.2.1.name.1 (ih n hn)
    | argument t =>
      refine .positional (name n) rfl (hn n (Nat.le_refl _) ?_) (ih (n + 1) fun i h1 h2 => hn i (by omega) ?_)
      · simp only [arguments, List.length_cons]; omega
      · simp only [arguments, List.length_cons]; omega

theorem firstResult_parts (ws : List Word) : ∀ n,
    (firstResult c n ws).filter (fun o => o.positionKey = -1 ∧ o.unregistered = false) = (firsts ws).map (settingOption c) ∧
    collectUnrecognized .includePositional (firstResult c n ws) = (others ws).map Word.token := by
  induction ws with
  | nil => intro n; exact ⟨rfl, rfl⟩
  | cons w ws ih =>
    intro n
    cases w with
    | first s =>
      obtain ⟨h1, h2⟩ := ih n
      rw [firstResult, List.filter_cons_of_pos (by simp [settingOption]), h1, collectUnrecognized, if_neg (by simp [settingOption]), h2]
      exact ⟨rfl, rfl⟩
    | second s =>
      obtain ⟨h1, h2⟩ := ih n
      rw [firstResult, List.filter_cons_of_neg (by simp), h1, collectUnrecognized, if_pos (by simp), h2]
      exact ⟨rfl, rfl⟩
    | argument t =>
      obtain ⟨h1, h2⟩ := ih (n + 1)
      rw [firstResult, List.filter_cons_of_neg (by simp [argumentOption]), h1, collectUnrecognized, if_pos (by simp [argumentOption]), h2]
      exact ⟨rfl, rfl⟩

theorem secondResult_parts (name : Nat → Str) (ws : List Word) : ∀ n,
    (secondResult c name n ws).filter (fun o => o.positionKey = -1) = (seconds ws).map (settingOption c) ∧
    (secondResult c name n ws).filter (fun o => o.positionKey ≠ -1) = (arguments ws).mapIdx fun i t => argumentOption c name (n + i) t := by
  induction ws with
  | nil => intro n; exact ⟨rfl, rfl⟩
  | cons w ws ih =>
    intro n
    cases w with
    | first s => exact ih n
    | second s =>
      obtain ⟨h1, h2⟩ := ih n
      rw [secondResult, List.filter_cons_of_pos (by simp [settingOption]), h1, List.filter_cons_of_neg (by simp [settingOption]), h2]
      exact ⟨rfl, rfl⟩
    | argument t =>
      obtain ⟨h1, h2⟩ := ih (n + 1)
      rw [secondResult, List.filter_cons_of_neg (by simp [argumentOption]), h1, List.filter_cons_of_pos (by simp [argumentOption]), h2]
      refine ⟨rfl, ?_⟩
      rw [arguments, List.mapIdx_cons]
      simp only [Nat.add_assoc, Nat.add_comm 1, Nat.add_zero]

end Cmdline

theorem others_length (ws : List Word) : (others ws).length ≤ ws.length := by
  induction ws with
  | nil => exact Nat.le_refl _
  | cons w ws ih => cases w <;> simp [others] <;> omega

/-- **C90.** A command line with settings for two programs and arguments, in any order: the first program, which allows unregistered options, recognises
exactly its settings; what `collect_unrecognized` returns is read by the second one as exactly its settings and the arguments. -/
theorem C90_two_programs (c1 c2 : Cmdline) (hs1 : c1.styleParser = none) (ha1 : c1.additional = none) (hl1 : Enabled c1 Style.allowLong)
    (hne1 : ∀ d ∈ c1.desc, ∀ name, name ≠ [] → reportedKey d name ≠ []) (hu : c1.allowUnregistered = true) (hp : c1.positional = none)
    (hs2 : c2.styleParser = none) (ha2 : c2.additional = none) (hl2 : Enabled c2 Style.allowLong)
    (hne2 : ∀ d ∈ c2.desc, ∀ name, name ≠ [] → reportedKey d name ≠ []) (ws : List Word) (h : ∀ w ∈ ws, w.Clear c1 c2) (name : Nat → Str)
    (hn : ArgumentNames c2 name (arguments ws).length) (hlen : ws.length < 2147483648) :
    ∃ r1 r2, c1.run (ws.map Word.token) = .ok r1 ∧
      r1.filter (fun o => o.positionKey = -1 ∧ o.unregistered = false) = (firsts ws).map (settingOption c1) ∧
      c2.run (collectUnrecognized .includePositional r1) = .ok r2 ∧
      r2.filter (fun o => o.positionKey = -1) = (seconds ws).map (settingOption c2) ∧
      r2.filter (fun o => o.positionKey ≠ -1) = (arguments ws).mapIdx (argumentOption c2 name) := by
  obtain ⟨p1, p2⟩ := Cmdline.firstResult_parts (c := c1) ws 0
  obtain ⟨q1, q2⟩ := Cmdline.secondResult_parts (c := c2) name ws 0
  refine ⟨_, _, (C61_grammar c1 hs1 hne1 _ (by simpa using hlen) _).2
    ⟨_, _, Cmdline.first_reads ha1 hl1 hu ws h, Cmdline.first_gathers ws h, Cmdline.first_labels hp ws h 0⟩, p1, ?_, q1, ?_⟩
  · rw [p2]
    exact (C61_grammar c2 hs2 hne2 _ (by
      have := others_length ws
      rw [List.length_map]; omega) _).2
      ⟨_, _, Cmdline.second_reads ha2 hl2 ws h, Cmdline.second_gathers ws h, Cmdline.second_labels ws h 0 fun i _ hi => hn i (by omega)⟩
  · rw [q2]
    simp only [Nat.zero_add]

/-- A store does not see unnamed arguments and unregistered options. -/
theorem store_skip (p : Parsed) (q : Opt → Bool) (h : ∀ o ∈ p.options, q o = false → o.stringKey = [] ∨ o.unregistered = true) (xm : VarMap) (utf8 : Bool) :
    store { p with options := p.options.filter q } xm utf8 = store p xm utf8 := by
  have hl : ∀ (os : List Opt) (m : SMap VarValue) (nf : SSet), (∀ o ∈ os, q o = false → o.stringKey = [] ∨ o.unregistered = true) →
      storeLoop p.desc p.pre utf8 xm.final (os.filter q) m nf = storeLoop p.desc p.pre utf8 xm.final os m nf := by
    intro os
    induction os with
    | nil => intro m nf _; rfl
    | cons o os ih =>
      intro m nf h
      have ih := fun m nf => ih m nf fun o' ho' => h o' (by simp [ho'])
      cases hq : q o with
      | true =>
        rw [List.filter_cons_of_pos hq, storeLoop, storeLoop]
        split
        · rfl
        · exact ih _ _
      | false =>
        rw [List.filter_cons_of_neg (by simp [hq]), storeLoop, ih]
        have : storeOne p.desc p.pre utf8 xm.final m nf o = ((m, nf), none) := by
          unfold storeOne
          by_cases h0 : o.stringKey = []
          · simp [h0]
          · rcases h o (by simp) hq with h | h
            · exact absurd h h0
            · simp [h0, h]
        rw [this]
  unfold store
  rw [hl p.options xm.map [] h]

/-- Positional arguments have no name if none is declared. -/
theorem positional_unnamed (c : Cmdline) (hs : c.styleParser = none) (hne : ∀ d ∈ c.desc, ∀ name, name ≠ [] → reportedKey d name ≠ [])
    (hp : c.positional = none) (args : List Str) (hlen : args.length < 2147483648) (res : List Opt) (h : c.run args = .ok res) :
    ∀ o ∈ res, o.positionKey ≠ -1 → o.stringKey = [] := by
  obtain ⟨os, os', h1, h2, h3⟩ := (C61_grammar c hs hne args hlen res).1 h
  have hw := Cmdline.gathers_named h2 (Cmdline.reads_named h1)
  clear h1 h2 h
  generalize 0 = n at h3
  induction h3 with
  | nil => simp
  | named hk t ih =>
    intro o ho hpos
    rcases List.mem_cons.1 ho with rfl | ho
    · exact absurd (hw _ (by simp) hk) hpos
    · exact ih (fun q hq => hw q (by simp [hq])) o ho hpos
  | positional name hk hn t ih =>
    intro o ho hpos
    rcases List.mem_cons.1 ho with rfl | ho
    · rw [hp] at hn
      exact hn
    · exact ih (fun q hq => hw q (by simp [hq])) o ho hpos

/-- **C90, the values stored:** each of the two programs stores what it would store if it had been given its own settings only. -/
theorem C90_stored (c1 c2 : Cmdline) (hs1 : c1.styleParser = none) (ha1 : c1.additional = none) (hl1 : Enabled c1 Style.allowLong)
    (hne1 : ∀ d ∈ c1.desc, ∀ name, name ≠ [] → reportedKey d name ≠ []) (hu : c1.allowUnregistered = true) (hp : c1.positional = none)
    (hs2 : c2.styleParser = none) (ha2 : c2.additional = none) (hl2 : Enabled c2 Style.allowLong)
    (hne2 : ∀ d ∈ c2.desc, ∀ name, name ≠ [] → reportedKey d name ≠ []) (hp2 : c2.positional = none) (ws : List Word)
    (h : ∀ w ∈ ws, w.Clear c1 c2) (hlen : ws.length < 2147483648) :
    ∃ p1 p2 p1' p2', c1.parse (ws.map Word.token) = .ok p1 ∧ c2.parse (collectUnrecognized .includePositional p1.options) = .ok p2 ∧
      c1.parse ((firsts ws).map written) = .ok p1' ∧ c2.parse ((seconds ws).map written) = .ok p2' ∧
      ∀ xm utf8, store p1 xm utf8 = store p1' xm utf8 ∧ store p2 xm utf8 = store p2' xm utf8 := by
  obtain ⟨r1, r2, h1, h2, h3, h4, h5⟩ := C90_two_programs c1 c2 hs1 ha1 hl1 hne1 hu hp hs2 ha2 hl2 hne2 ws h (fun _ => [])
    (by intro i _; rw [hp2]) hlen
  have hf : ∀ s ∈ firsts ws, Expressible c1 s := by
    clear h1 h2 h3 h4 h5 hlen
    induction ws with
    | nil => simp [firsts]
    | cons w ws ih =>
      have ih := ih fun q hq => h q (by simp [hq])
      have hw := h w (by simp)
      cases w with
      | first s =>
        intro s' hs'
        rcases List.mem_cons.1 hs' with rfl | hs'
        · exact hw.1
        · exact ih s' hs'
      | second s => exact ih
      | argument t => exact ih
  have hs : ∀ s ∈ seconds ws, Expressible c2 s := by
    clear h1 h2 h3 h4 h5 hlen hf
    induction ws with
    | nil => simp [seconds]
    | cons w ws ih =>
      have ih := ih fun q hq => h q (by simp [hq])
      have hw := h w (by simp)
      cases w with
      | first s => exact ih
      | second s =>
        intro s' hs'
        rcases List.mem_cons.1 hs' with rfl | hs'
        · exact hw.2.1
        · exact ih s' hs'
      | argument t => exact ih
  have l1 : (firsts ws).length ≤ ws.length := by
    clear h h1 h2 h3 h4 h5 hf hs hlen
    induction ws with
    | nil => exact Nat.le_refl _
    | cons w ws ih => cases w <;> simp [firsts] <;> omega
  have l2 : (seconds ws).length ≤ ws.length := by
    clear h h1 h2 h3 h4 h5 hf hs hlen l1
    induction ws with
    | nil => exact Nat.le_refl _
    | cons w ws ih => cases w <;> simp [seconds] <;> omega
  refine ⟨⟨c1.desc, r1, c1.canonicalPrefix⟩, ⟨c2.desc, r2, c2.canonicalPrefix⟩, ⟨c1.desc, (firsts ws).map (settingOption c1), c1.canonicalPrefix⟩,
    ⟨c2.desc, (seconds ws).map (settingOption c2), c2.canonicalPrefix⟩, ?_, ?_, ?_, ?_, ?_⟩
  · unfold Cmdline.parse; rw [h1]
  · unfold Cmdline.parse; rw [h3]
  · unfold Cmdline.parse; rw [C84_settings c1 hs1 ha1 hl1 hne1 _ hf (by omega)]
  · unfold Cmdline.parse; rw [C84_settings c2 hs2 ha2 hl2 hne2 _ hs (by omega)]
  · intro xm utf8
    constructor
    · rw [← h2]
      refine (store_skip ⟨c1.desc, r1, c1.canonicalPrefix⟩ _ ?_ xm utf8).symm
      intro o ho hq
      by_cases hk : o.unregistered = true
      · exact .inr hk
      · refine .inl (positional_unnamed c1 hs1 hne1 hp _ (by simpa using hlen) _ h1 o ho ?_)
        simpa [hk] using hq
    · rw [← h4]
      refine (store_skip ⟨c2.desc, r2, c2.canonicalPrefix⟩ _ ?_ xm utf8).symm
      intro o ho hq
      have : o ∈ r2.filter (fun o => o.positionKey ≠ -1) := List.mem_filter.2 ⟨ho, by simpa using hq⟩
      rw [h5] at this
      obtain ⟨i, hi, rfl⟩ := List.mem_mapIdx.1 this
      exact .inl rfl

/-- The second program: a string and any number of arguments. -/
def secondExample : Cmdline :=
  { desc := [Test.od "level,l" (Test.sem Test.vstr), Test.od "file" (Test.sem Test.vvec)]
    positional := some { names := [], trailing := Test.L "file" } }

/-- `--level=3 a --verbose b --out=x`, for `forwardExample` and `secondExample`. -/
def wordsExample : List Word :=
  [.second (Test.L "level", some (Test.L "3")), .argument (Test.L "a"), .first (Test.L "verbose", none), .argument (Test.L "b"),
    .first (Test.L "out", some (Test.L "x"))]

/-- All of its words are clear. -/
example : ∀ w ∈ wordsExample, w.Clear forwardExample secondExample := by
  have plain : ∀ (c : Cmdline) (x : Char), c.additional = none → ¬ Enabled c Style.allowLongDisguise → x ≠ '-' → x ≠ '/' → Plain c [x] := by
    intro c x ha hd h1 h2
    refine ⟨fun f hf => (by rw [ha] at hf; cases hf), fun _ h => absurd h (by simp), fun h => absurd h hd, ?_, ?_⟩
    · intro _ _ a t e
      cases e
    · intro _ _ a t e
      cases e
  intro w hw
  simp only [wordsExample, List.mem_cons, List.not_mem_nil, or_false] at hw
  rcases hw with rfl | rfl | rfl | rfl | rfl
  · refine ⟨?_, ⟨by decide, by decide, _, .inl rfl, rfl, by decide⟩, ?_⟩
    · intro d hd
      simp only [forwardExample, List.mem_cons, List.not_mem_nil, or_false] at hd
      rcases hd with rfl | rfl | rfl <;> decide
    · intro d hd
      rcases hd with hd | hd
      · cases hd; decide
      · exact absurd hd.1 nofun
  · exact ⟨plain _ _ rfl (by unfold Enabled; decide) (by decide) (by decide), plain _ _ rfl (by unfold Enabled; decide) (by decide) (by decide), by decide⟩
  · refine ⟨⟨by decide, by decide, _, .inl rfl, rfl, by decide⟩, ?_⟩
    intro d hd
    rcases hd with hd | hd
    · cases hd; decide
    · exact absurd hd.1 nofun
  · exact ⟨plain _ _ rfl (by unfold Enabled; decide) (by decide) (by decide), plain _ _ rfl (by unfold Enabled; decide) (by decide) (by decide), by decide⟩
  · refine ⟨⟨by decide, by decide, _, .inl rfl, rfl, by decide⟩, ?_⟩
    intro d hd
    rcases hd with hd | hd
    · cases hd; decide
    · exact absurd hd.1 nofun

example : ∃ r1 r2, forwardExample.run (wordsExample.map Word.token) = .ok r1 ∧ secondExample.run (collectUnrecognized .includePositional r1) = .ok r2 ∧
    (r1.filter fun o => o.positionKey = -1 ∧ o.unregistered = false).map (fun o => (o.stringKey, o.value)) =
      [(Test.L "verbose", []), (Test.L "out", [Test.L "x"])] ∧
    r2.map (fun o => (o.stringKey, o.positionKey, o.value)) =
      [(Test.L "level", -1, [Test.L "3"]), (Test.L "file", 0, [Test.L "a"]), (Test.L "file", 1, [Test.L "b"])] := ⟨_, _, rfl, rfl, rfl, rfl⟩

/-- The setting must be written in one token: the first program reads a value in the next one as an argument, but it still arrives. -/
example : ∃ r1 r2, forwardExample.run [Test.L "--level", Test.L "3", Test.L "-v"] = .ok r1 ∧
    secondExample.run (collectUnrecognized .includePositional r1) = .ok r2 ∧ r2.map (fun o => (o.stringKey, o.value)) = [(Test.L "level", [Test.L "3"])] :=
  ⟨_, _, rfl, rfl, rfl⟩

/-- But not if that value looks like an option of the first program. -/
example : ∃ r1 f, forwardExample.run [Test.L "--level", Test.L "--verbose"] = .ok r1 ∧
    secondExample.run (collectUnrecognized .includePositional r1) = .error f := ⟨_, _, rfl, rfl⟩

end PO
