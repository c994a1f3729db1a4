import Verif.Spec.RegexProgram
import Verif.Props.Custom
import Verif.Props.DescProgram
/-
C120: what example/regex.cpp prints.
-/
namespace PO.RegexProgram
open Spec
open Hierarchy (opt occ_ne occ_nil)
open MultipleSources (Outcome occ_length)
open DescProgram (switch_iff)

def dHelp (env : Env) : OptionDesc := { shortName := [], longNames := [str% "help"], description := [], semantic := untypedValue env true }
def dVersion (env : Env) : OptionDesc := { shortName := str% "-v", longNames := [str% "version"], description := [], semantic := untypedValue env true }
def dMagic (env : Env) : OptionDesc :=
  { shortName := str% "-m", longNames := [str% "magic"], description := [], semantic := magicValue.withOverloads env validateMagic }

theorem desc_eq (env : Env) : desc env = [dHelp env, dVersion env, dMagic env] := rfl

def parser (env : Env) : Cmdline := { desc := desc env }

theorem commandLine_eq (env : Env) (args : List Str) : commandLine env args = (parser env).parse args := rfl

theorem mem_desc {env : Env} {d : OptionDesc} : d ∈ desc env ↔ d = dHelp env ∨ d = dVersion env ∨ d = dMagic env := by
  rw [desc_eq]
  simp only [List.mem_cons, List.not_mem_nil, or_false]

theorem typed_magic : WellTyped magicValue := ⟨(by rintro q h; cases h), by rintro q h; cases h⟩

theorem custom (env : Env) : CustomParser env (parser env) := by
  refine ⟨namedParser_of rfl (show active Style.defaultStyle Style.longCaseInsensitive = false from rfl)
    (show active Style.defaultStyle Style.shortCaseInsensitive = false from rfl) ?_ ?_ ?_, ?_⟩
  · intro d hd
    rcases mem_desc.1 hd with rfl | rfl | rfl <;> exact List.cons_ne_nil _ _
  · show [str% "help", str% "-v", str% "version", str% "-m", str% "magic"].Nodup
    decide
  · intro q hq; cases hq
  · intro d hd
    rcases mem_desc.1 hd with rfl | rfl | rfl
    · exact .plain (.untyped true)
    · exact .plain (.untyped true)
    · exact .custom magicValue validateMagic typed_magic rfl

theorem digit_iff (c : Char) (n : Nat) : digit c = some n ↔ Digit c n := by
  constructor
  · intro h
    unfold digit at h
    split at h
    · rename_i hc
      cases h
      obtain ⟨h1, h2⟩ := hc
      have hch : c = Char.ofNat c.toNat := (Char.ofNat_toNat c).symm
      generalize hk : c.toNat = k at *
      have h1 : 48 ≤ k := h1
      have h2 : k ≤ 57 := h2
      show Digit c (k - 48)
      have : k = 48 ∨ k = 49 ∨ k = 50 ∨ k = 51 ∨ k = 52 ∨ k = 53 ∨ k = 54 ∨ k = 55 ∨ k = 56 ∨ k = 57 := by omega
      rcases this with rfl | rfl | rfl | rfl | rfl | rfl | rfl | rfl | rfl | rfl <;> rw [hch]
      · exact .zero
      · exact .one
      · exact .two
      · exact .three
      · exact .four
      · exact .five
      · exact .six
      · exact .seven
      · exact .eight
      · exact .nine
    · cases h
  · intro h
    cases h <;> rfl

theorem magic_iff (s : Str) (n : Int) : magic s = some n ↔ Magic s n := by
  constructor
  · intro h
    unfold magic at h
    split at h
    · split at h
      · rename_i a b c m d e f _ _ _ _ _ _ _ _ _ _ x y z ha hb hc hm hd he hf
        cases h
        have : m = '-' := by simpa using hm
        subst this
        have := Magic.mk ((digit_iff _ _).1 ha) ((digit_iff _ _).1 hb) ((digit_iff _ _).1 hc) ((digit_iff _ _).1 hd) ((digit_iff _ _).1 he) ((digit_iff _ _).1 hf)
        simpa using this
      · cases h
    · cases h
  · intro h
    cases h with
    | mk ha hb hc hd he hf =>
      simp only [magic, (digit_iff _ _).2 ha, (digit_iff _ _).2 hb, (digit_iff _ _).2 hc, (digit_iff _ _).2 hd, (digit_iff _ _).2 he, (digit_iff _ _).2 hf]
      simp

theorem magic_obtains {env : Env} {L : List (List Str)} {r : Any} :
    Obtains env (magicValue.withOverloads env validateMagic) L r ↔ L = [] ∧ r = none ∨ ∃ t n, L = [[t]] ∧ Magic t n ∧ r = some (.scalar (.lex 7 n)) := by
  rw [obtains_custom typed_magic rfl]
  show Hands (onceValidator [] _) magicValue none L r ↔ _
  rw [C119_once _ magicValue (.lex 7) rfl rfl]
  refine or_congr_right ?_
  constructor
  · rintro ⟨x, w, rfl, hw, rfl⟩
    cases hm : magic x with
    | none => rw [hm] at hw; cases hw
    | some n => rw [hm] at hw; cases hw; exact ⟨x, n, rfl, (magic_iff _ _).1 hm, rfl⟩
  · rintro ⟨x, n, rfl, hn, rfl⟩
    exact ⟨x, _, rfl, by rw [(magic_iff _ _).2 hn], rfl⟩

theorem switch_obtains {env : Env} {L : List (List Str)} {r : Any} : Obtains env (untypedValue env true) L r ↔ Gains env (untypedValue env true) L r := by
  rw [← obtains_iff (.plain (.untyped true)), gains_iff (.untyped true)]

theorem minmax (env : Env) : ∀ d ∈ (parser env).desc, d.semantic.minTokens ≤ d.semantic.maxTokens := by
  intro d hd
  rcases mem_desc.1 hd with rfl | rfl | rfl
  · exact Nat.le_refl 0
  · exact Nat.le_refl 0
  · exact Nat.le_refl 1

/-- `--magic` is not given, or once with a text as it should be. -/
def MagicGiven (os : List Opt) : Prop := tokensOf os (str% "magic") = [] ∨ ∃ t n, tokensOf os (str% "magic") = [[t]] ∧ Magic t n

theorem stored_iff {env : Env} {args : List Str} {p : Parsed} (hlen : args.length < 2147483648) (h : commandLine env args = .ok p) :
    (∃ m, store p {} = (m, none)) ↔ AtMostOnce p.options (str% "help") ∧ AtMostOnce p.options (str% "version") ∧ MagicGiven p.options := by
  rw [commandLine_eq] at h
  have hv := (custom env).toNamedParser.tokens (minmax env) args hlen p h
  rw [C119_stored env _ (custom env) args p h]
  have hH : dHelp env ∈ desc env := mem_desc.2 (by simp)
  have hV : dVersion env ∈ desc env := mem_desc.2 (by simp)
  have hM : dMagic env ∈ desc env := mem_desc.2 (by simp)
  have e1 := switch_iff (env := env) fun l hl => (hv (dHelp env) hH (by intro q hq; cases hq) l hl).2
  have e2 := switch_iff (env := env) fun l hl => (hv (dVersion env) hV (by intro q hq; cases hq) l hl).2
  have e3 : (∃ r, Obtains env (dMagic env).semantic (tokensOf p.options (str% "magic")) r) ↔ MagicGiven p.options := by
    show (∃ r, Obtains env (magicValue.withOverloads env validateMagic) _ r) ↔ _
    simp only [magic_obtains]
    constructor
    · rintro ⟨r, ⟨h, -⟩ | ⟨t, n, h, hn, -⟩⟩
      · exact .inl h
      · exact .inr ⟨t, n, h, hn⟩
    · rintro (h | ⟨t, n, h, hn⟩)
      · exact ⟨_, .inl ⟨h, rfl⟩⟩
      · exact ⟨_, .inr ⟨t, n, h, hn, rfl⟩⟩
  have sw : ∀ {L}, (∃ r, Obtains env (untypedValue env true) L r) ↔ ∃ r, Gains env (untypedValue env true) L r := exists_congr fun _ => switch_obtains
  constructor
  · intro hall
    exact ⟨occ_length.1 (e1.1 (sw.1 (hall _ hH))), occ_length.1 (e2.1 (sw.1 (hall _ hV))), e3.1 (hall _ hM)⟩
  · rintro ⟨h1, h2, h3⟩ d hd
    rcases mem_desc.1 hd with rfl | rfl | rfl
    · exact sw.2 (e1.2 (occ_length.2 h1))
    · exact sw.2 (e2.2 (occ_length.2 h2))
    · exact e3.2 h3

theorem runs {env : Env} (print : Int → Str) (help : Str) {args : List Str} {p : Parsed} (h : commandLine env args = .ok p) {m : VarMap} (hm : store p {} = (m, none)) :
    ∃ out, main env print help args = .returns out ∧ RegexPrints print help p.options out := by
  have h' := h
  rw [commandLine_eq] at h
  unfold main
  rw [h']
  dsimp only
  rw [hm]
  dsimp only
  have hH : dHelp env ∈ desc env := mem_desc.2 (by simp)
  have hV : dVersion env ∈ desc env := mem_desc.2 (by simp)
  have hM : dMagic env ∈ desc env := mem_desc.2 (by simp)
  by_cases hg : Mentions p.options (str% "help")
  · obtain ⟨r, -, hv⟩ := C119_given env _ (custom env) args p h m hm (dHelp env) hH hg
    have hv : m.map.get? (str% "help") = _ := hv
    exact ⟨_, by unfold report; rw [hv]; rfl, .help hg⟩
  have h1 : m.map.get? (str% "help") = none := C119_not_given env _ (custom env) args p h m hm (dHelp env) hH hg
  by_cases hg2 : Mentions p.options (str% "version")
  · obtain ⟨r, -, hv⟩ := C119_given env _ (custom env) args p h m hm (dVersion env) hV hg2
    have hv : m.map.get? (str% "version") = _ := hv
    exact ⟨_, by unfold report; rw [h1, hv]; rfl, .version hg hg2⟩
  have h2 : m.map.get? (str% "version") = none := C119_not_given env _ (custom env) args p h m hm (dVersion env) hV hg2
  by_cases hg3 : Mentions p.options (str% "magic")
  · obtain ⟨r, hr, hv⟩ := C119_given env _ (custom env) args p h m hm (dMagic env) hM hg3
    have hv : m.map.get? (str% "magic") = _ := hv
    rcases magic_obtains.1 hr with ⟨h0, -⟩ | ⟨t, n, ht, hn, rfl⟩
    · exact absurd h0 (occ_ne hg3)
    · exact ⟨_, by unfold report; rw [h1, h2, hv]; rfl, .magic hg hg2 ht hn⟩
  · have h3 : m.map.get? (str% "magic") = none := C119_not_given env _ (custom env) args p h m hm (dMagic env) hM hg3
    exact ⟨_, by unfold report; rw [h1, h2, h3]; rfl, .nothing hg hg2 hg3⟩

theorem prints_det {print : Int → Str} {help : Str} {os : List Opt} {a b : Str} (ha : RegexPrints print help os a) (hb : RegexPrints print help os b) : a = b := by
  have hno : ∀ {L}, L ≠ [] → tokensOf os (str% "magic") = L → Mentions os (str% "magic") := by
    intro L hL h
    by_cases hm : Mentions os (str% "magic")
    · exact hm
    · unfold tokensOf at h
      rw [occ_nil hm] at h
      exact absurd h.symm hL
  cases ha with
  | help h => cases hb with
    | help => rfl
    | version h' => exact absurd h h'
    | magic h' => exact absurd h h'
    | nothing h' => exact absurd h h'
  | version h0 h => cases hb with
    | help h' => exact absurd h' h0
    | version => rfl
    | magic _ h' => exact absurd h h'
    | nothing _ h' => exact absurd h h'
  | magic h0 h1 h hn => cases hb with
    | help h' => exact absurd h' h0
    | version _ h' => exact absurd h' h1
    | magic _ _ h' hn' =>
      cases h.symm.trans h'
      rw [Option.some.inj (((magic_iff _ _).2 hn).symm.trans ((magic_iff _ _).2 hn'))]
    | nothing _ _ h' => exact absurd (hno (by simp) h) h'
  | nothing h0 h1 h => cases hb with
    | help h' => exact absurd h' h0
    | version _ h' => exact absurd h' h1
    | magic _ _ h' _ => exact absurd (hno (by simp) h') h
    | nothing => rfl

/-- **C120.** The program prints something else than the text of an exception exactly if the command line is accepted, `--help` and `--version` are
given at most once, and `--magic` is not given or given once with three digits, a dash and three digits. -/
theorem C120_returns (env : Env) (print : Int → Str) (help : Str) (args : List Str) (hlen : args.length < 2147483648) (out : Str) :
    main env print help args = .returns out ↔
      ∃ p, commandLine env args = .ok p ∧ AtMostOnce p.options (str% "help") ∧ AtMostOnce p.options (str% "version") ∧ MagicGiven p.options ∧
        RegexPrints print help p.options out := by
  constructor
  · intro h
    cases hp : commandLine env args with
    | error f => unfold main at h; rw [hp] at h; cases h
    | ok p =>
      rcases hs : store p {} with ⟨m, e⟩
      cases e with
      | none =>
        obtain ⟨out', h1, h2⟩ := runs print help hp hs
        cases h1.symm.trans h
        obtain ⟨g1, g2, g3⟩ := (stored_iff hlen hp).1 ⟨m, hs⟩
        exact ⟨p, rfl, g1, g2, g3, h2⟩
      | some f =>
        unfold main at h
        rw [hp] at h
        dsimp only at h
        rw [hs] at h
        cases h
  · rintro ⟨p, hp, g1, g2, g3, h2⟩
    obtain ⟨m, hm⟩ := (stored_iff hlen hp).2 ⟨g1, g2, g3⟩
    obtain ⟨out', h1, h3⟩ := runs print help hp hm
    rw [h1, prints_det h2 h3]

theorem proper_magic : Proper validateMagic.narrow (.lex 7) ∧ ∀ v xs a e, validateMagic.narrow v xs = (a, some e) → LibraryException e := by
  have key : ∀ v xs, validateMagic.narrow v xs = onceValidator [] (fun s => match magic s with
    | some n => .ok (.lex 7 n) | none => .error (errValidation .invalidOptionValue)) v xs := fun _ _ => rfl
  have cases_ : ∀ v xs, (∃ e, validateMagic.narrow v xs = (v, some e) ∧ LibraryException e) ∨ ∃ n, validateMagic.narrow v xs = (some (.scalar (.lex 7 n)), none) := by
    intro v xs
    rw [key]
    unfold onceValidator
    cases v with
    | some w => exact .inl ⟨_, rfl, trivial⟩
    | none =>
      match xs with
      | [] => exact .inl ⟨_, rfl, trivial⟩
      | _ :: _ :: _ => exact .inl ⟨_, rfl, trivial⟩
      | [x] =>
        simp only [getSingle]
        cases magic x with
        | none => exact .inl ⟨_, rfl, trivial⟩
        | some n => exact .inr ⟨n, rfl⟩
  refine ⟨⟨?_, ?_⟩, ?_⟩
  · intro v xs a _ h
    rcases cases_ v xs with ⟨e, h1, -⟩ | ⟨n, h1⟩
    · rw [h1] at h; cases h
    · rw [h1] at h; cases h; exact ⟨.lex 7 n, rfl, rfl⟩
  · intro v xs a e _ h
    rcases cases_ v xs with ⟨e, h1, -⟩ | ⟨n, h1⟩
    · rw [h1] at h; cases h; rfl
    · rw [h1] at h; cases h
  · intro v xs a e h
    rcases cases_ v xs with ⟨e, h1, h2⟩ | ⟨n, h1⟩
    · rw [h1] at h; cases h; exact h2
    · rw [h1] at h; cases h

/-- Otherwise an exception of the library gets to the handler. -/
theorem C120_otherwise (env : Env) (print : Int → Str) (help : Str) (args : List Str) :
    (∃ out, main env print help args = .returns out) ∨ ∃ f, main env print help args = .caught f ∧ LibraryException f := by
  have hl := C119_otherwise env (parser env) (custom env) (by
    intro d hd
    rcases mem_desc.1 hd with rfl | rfl | rfl
    · exact .inl (.untyped true)
    · exact .inl (.untyped true)
    · exact .inr ⟨magicValue, validateMagic, rfl, typed_magic, rfl, proper_magic.1, fun v xs a e h => .inl (proper_magic.2 v xs a e h)⟩) args
  cases hp : commandLine env args with
  | error f => exact .inr ⟨f, by unfold main; rw [hp], hl f (.inl hp)⟩
  | ok p =>
    rcases hst : store p {} with ⟨m, e⟩
    cases e with
    | some f => exact .inr ⟨f, by unfold main; simp only [hp, hst], hl f (.inr (.inl ⟨p, m, hp, hst⟩))⟩
    | none =>
      obtain ⟨out, h, -⟩ := runs print help hp hst
      exact .inl ⟨out, h⟩

/-- A wrong number is refused with this text, whatever it is, however `--magic` was written and whatever follows, if nothing before is refused. -/
theorem C120_message (env : Env) (print : Int → Str) (help : Str) (args : List Str) (hlen : args.length < 2147483648) (p : Parsed) (hp : commandLine env args = .ok p)
    (before : List Opt) (o : Opt) (after : List Opt) (ho : p.options = before ++ o :: after) (h1 : AtMostOnce before (str% "help"))
    (h2 : AtMostOnce before (str% "version")) (h3 : ¬ Mentions before (str% "magic")) (hk : o.stringKey = str% "magic") (hreg : o.unregistered = false) (t : Str)
    (hv : o.value = [t]) (ht : ∀ n, ¬ Magic t n) :
    ∃ e, main env print help args = .caught (.opt e) ∧ ∀ fuel, 1 ≤ fuel → e.what fuel = some (str% "the argument for option '--magic' is invalid") := by
  have hm : magic t = none := by
    cases hm : magic t with
    | none => rfl
    | some n => exact absurd ((magic_iff _ _).1 hm) (ht n)
  have hH : dHelp env ∈ desc env := mem_desc.2 (by simp)
  have hV : dVersion env ∈ desc env := mem_desc.2 (by simp)
  have hM : dMagic env ∈ desc env := mem_desc.2 (by simp)
  have hval := (custom env).toNamedParser.tokens (minmax env) args hlen p hp
  have hsub : ∀ name, ∀ l ∈ tokensOf before name, l ∈ tokensOf p.options name := by
    intro name l hl
    rw [ho]
    unfold tokensOf occurrences at hl ⊢
    rw [List.filter_append, List.map_append]
    exact List.mem_append_left _ hl
  have e1 := switch_iff (env := env) fun l hl => (hval (dHelp env) hH (by intro q hq; cases hq) l (hsub (str% "help") l hl)).2
  have e2 := switch_iff (env := env) fun l hl => (hval (dVersion env) hV (by intro q hq; cases hq) l (hsub (str% "version") l hl)).2
  have sw : ∀ {L}, (∃ r, Obtains env (untypedValue env true) L r) ↔ ∃ r, Gains env (untypedValue env true) L r := exists_congr fun _ => switch_obtains
  have h0 : tokensOf before (str% "magic") = [] := by unfold tokensOf; rw [occ_nil h3]; rfl
  have h := C119_refuses env _ (custom env) args p hp before o after ho hreg (fun d hd => by
      rcases mem_desc.1 hd with rfl | rfl | rfl
      · exact sw.2 (e1.2 (occ_length.2 h1))
      · exact sw.2 (e2.2 (occ_length.2 h2))
      · exact ⟨none, magic_obtains.2 (.inl ⟨h0, rfl⟩)⟩) (dMagic env) hM hk magicValue validateMagic rfl typed_magic
    rfl none (by rw [show tokensOf before (dMagic env).own = [] from h0]; exact .done _) (.inr rfl) (errValidation .invalidOptionValue) (.scalar (a := none) (by
      rw [hv]
      simp only [validateMagic, onceValidator, getSingle, hm]))
  have hpre : p.pre = Style.allowLong := by
    have hp : (parser env).parse args = .ok p := hp
    unfold Cmdline.parse at hp
    cases hr : (parser env).run args with
    | error g => rw [hr] at hp; cases hp
    | ok os =>
      rw [hr] at hp
      cases hp
      exact if_pos (show active Style.defaultStyle Style.allowLong = true from rfl)
  rw [hpre] at h
  refine ⟨(OptErr.mk' (.validation .invalidOptionValue)).addContext (str% "magic") (o.originalTokens.headD []) Style.allowLong, ?_, ?_⟩
  · unfold main
    rw [hp]
    dsimp only
    rcases hst : store p {} with ⟨m, f⟩
    rw [hst] at h
    dsimp only at h
    subst h
    rfl
  · intro fuel hf
    match fuel, hf with
    | 1, _ => rfl
    | n + 2, _ => rfl

end PO.RegexProgram
namespace PO
open Spec

def Ex.regexDemo (args : List String) : MultipleSources.Outcome := RegexProgram.main sourcesEnv (fun n => if n = 456 then Test.L "456" else []) (Test.L "HELP") (args.map Test.L)

set_option maxRecDepth 8000 in
example : Ex.regexDemo ["-m", "123-456"] = .returns (Test.L "The magic is \"456\"\n") ∧ Ex.regexDemo ["-m", "123-4567", "-v"] =
      .caught (.opt { cls := .validation .invalidOptionValue, style := Style.allowLong, subst := [(Test.L "option", Test.L "magic"), (Test.L "original_token", Test.L "-m")] }) ∧
    Ex.regexDemo ["--version", "--magic=123-456"] = .returns (Test.L "Version 1.\n") ∧ Ex.regexDemo ["--help"] = .returns (Test.L "Usage: regex [options]\nHELP") ∧
    Ex.regexDemo [] = .returns [] :=
  ⟨by rfl, by rfl, by rfl, by rfl, by rfl⟩

end PO
