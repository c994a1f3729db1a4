import Verif.Spec.ExtraPrograms
import Verif.Props.DescProgram
import Verif.Props.Joined
/-
C122: what example/custom_syntax.cpp and example/response_file.cpp print.
-/
namespace PO.Extra
open Spec
open Hierarchy (string occ_ne occ_nil)

theorem typed_string : WellTyped string := ⟨(by rintro q h; cases h), by rintro q h; cases h⟩

theorem string_iff {env : Env} {L : List (List Str)} (hL : ∀ l ∈ L, 1 ≤ l.length ∧ l.length ≤ 1) : (∃ r, Gains env (string.toSemantic env) L r) ↔ L.length ≤ 1 := by
  simp only [gains_string (t := string) rfl typed_string rfl rfl]
  match L with
  | [] => simp
  | [l] =>
    have := hL l (by simp)
    obtain ⟨x, rfl⟩ := List.length_eq_one_iff.1 (Nat.le_antisymm this.2 this.1)
    simp
  | _ :: _ :: _ => simp

theorem number_iff {env : Env} {t : TypedValue} (hty : t.type = .scalar (.lex 0)) (ht : WellTyped t) (hw : t.wide = false) (hi : t.implicit = none)
    {L : List (List Str)} (hL : ∀ l ∈ L, 1 ≤ l.length ∧ l.length ≤ 1) :
    (∃ r, Gains env (t.toSemantic env) L r) ↔ L.length ≤ 1 ∧ ∀ t ∈ L.flatten, ∃ n, env.lex 0 t = some n := by
  simp only [gains_number hty ht hw hi]
  match L with
  | [] => simp
  | [l] =>
    have := hL l (by simp)
    obtain ⟨x, rfl⟩ := List.length_eq_one_iff.1 (Nat.le_antisymm this.2 this.1)
    constructor
    · rintro ⟨r, ⟨h, -⟩ | ⟨y, n, h, hn, -⟩⟩
      · cases h
      · cases h; simp [hn]
    · rintro ⟨-, h⟩
      obtain ⟨n, hn⟩ := h x (by simp)
      exact ⟨_, .inr ⟨x, n, rfl, hn, rfl⟩⟩
  | _ :: _ :: _ => simp

theorem said_of {os : List Opt} {name t : Str} (h : tokensOf os name = [[t]]) : said os name = [t] := by
  show (occurrences os name).flatMap (·.value) = [t]
  unfold tokensOf at h
  rw [List.flatMap_def, h]
  rfl

theorem said_nil {os : List Opt} {name : Str} (h : ¬ Mentions os name) : said os name = [] := by
  unfold said
  rw [occ_nil h]
  rfl

theorem said_mentions {os : List Opt} {name t : Str} (h : said os name = [t]) : Mentions os name := by
  by_cases hm : Mentions os name
  · exact hm
  · rw [said_nil hm] at h; cases h

theorem perhaps_det {g : Prop} {t a b : Str} (ha : Perhaps g t a) (hb : Perhaps g t b) : a = b := by
  cases ha with
  | yes h => cases hb with | yes => rfl | no h' => exact absurd h h'
  | no h => cases hb with | yes h' => exact absurd h' h | no => rfl

theorem perhaps {g : Prop} {b : Bool} (hb : b = true ↔ g) (t : Str) : Perhaps g t (if b then t else []) := by
  cases b with
  | true => exact .yes (hb.1 rfl)
  | false => exact .no fun h => by cases hb.2 h

end PO.Extra

namespace PO.CustomSyntax
open Spec Extra
open Hierarchy (opt string occ_ne occ_nil)
open MultipleSources (Outcome occ_length)
open DescProgram (switch_iff)

def dHelp (env : Env) : OptionDesc := { shortName := [], longNames := [str% "help"], description := [], semantic := untypedValue env true }
def dFoo (env : Env) : OptionDesc := { shortName := [], longNames := [str% "foo"], description := [], semantic := string.toSemantic env }

theorem desc_eq (env : Env) : desc env = [dHelp env, dFoo env] := rfl

def parser (env : Env) : Cmdline := { desc := desc env, additional := some Example.regFoo }

theorem commandLine_eq (env : Env) (args : List Str) : commandLine env args = (parser env).parse args := rfl

theorem mem_desc {env : Env} {d : OptionDesc} : d ∈ desc env ↔ d = dHelp env ∨ d = dFoo env := by
  rw [desc_eq]
  simp only [List.mem_cons, List.not_mem_nil, or_false]

theorem usual (env : Env) : UsualParser env (parser env) := by
  refine usualParser_of rfl (show active Style.defaultStyle Style.longCaseInsensitive = false from rfl)
    (show active Style.defaultStyle Style.shortCaseInsensitive = false from rfl) ?_ ?_ ?_ ?_
  · intro d hd
    rcases mem_desc.1 hd with rfl | rfl <;> exact List.cons_ne_nil _ _
  · show [str% "help", str% "foo"].Nodup
    decide
  · intro d hd
    rcases mem_desc.1 hd with rfl | rfl
    · exact .untyped true
    · exact .typed string typed_string rfl
  · intro q hq; cases hq

theorem minmax (env : Env) : ∀ d ∈ (parser env).desc, d.semantic.minTokens ≤ d.semantic.maxTokens := by
  intro d hd
  rcases mem_desc.1 hd with rfl | rfl
  · exact Nat.le_refl 0
  · exact Nat.le_refl 1

theorem stored_iff {env : Env} {args : List Str} {p : Parsed} (hlen : args.length < 2147483648) (h : commandLine env args = .ok p) :
    (∃ m, store p {} = (m, none)) ↔ AtMostOnce p.options (str% "help") ∧ AtMostOnce p.options (str% "foo") := by
  rw [commandLine_eq] at h
  have hv := C117_tokens env (parser env) (usual env) (minmax env) args hlen p h
  rw [C117_stored env _ (usual env) args p h]
  have hH : dHelp env ∈ desc env := mem_desc.2 (by simp)
  have hF : dFoo env ∈ desc env := mem_desc.2 (by simp)
  have e1 := switch_iff (env := env) fun l hl => (hv (dHelp env) hH (by intro q hq; cases hq) l hl).2
  have e2 := string_iff (env := env) (hv (dFoo env) hF (by intro q hq; cases hq))
  constructor
  · intro hall
    exact ⟨occ_length.1 (e1.1 (hall _ hH)), occ_length.1 (e2.1 (hall _ hF))⟩
  · rintro ⟨h1, h2⟩ d hd
    rcases mem_desc.1 hd with rfl | rfl
    · exact e1.2 (occ_length.2 h1)
    · exact e2.2 (occ_length.2 h2)

theorem runs {env : Env} (help : Str) {args : List Str} {p : Parsed} (h : commandLine env args = .ok p) {m : VarMap} (hm : store p {} = (m, none)) :
    ∃ out, main env help args = .returns out ∧ CustomPrints help p.options out := by
  have h' := h
  rw [commandLine_eq] at h
  unfold main
  rw [h']
  dsimp only
  rw [hm]
  dsimp only
  have hH : dHelp env ∈ desc env := mem_desc.2 (by simp)
  have hF : dFoo env ∈ desc env := mem_desc.2 (by simp)
  have hp : (m.map.get? (str% "help")).isSome = true ↔ Mentions p.options (str% "help") := by
    by_cases hg : Mentions p.options (str% "help")
    · obtain ⟨r, -, hv⟩ := C117_given env _ (usual env) args p h m hm (dHelp env) hH hg
      have hv : m.map.get? (str% "help") = _ := hv
      rw [hv]
      exact ⟨fun _ => hg, fun _ => rfl⟩
    · have hv : m.map.get? (str% "help") = none := C117_not_given env _ (usual env) args p h m hm (dHelp env) hH hg
      rw [hv]
      exact ⟨fun h => (by cases h), fun h => absurd h hg⟩
  have ha := perhaps hp
  by_cases hg : Mentions p.options (str% "foo")
  · obtain ⟨r, hr, hv⟩ := C117_given env _ (usual env) args p h m hm (dFoo env) hF hg
    have hv : m.map.get? (str% "foo") = _ := hv
    rcases (gains_string (t := string) rfl typed_string rfl rfl).1 hr with ⟨h0, -⟩ | ⟨t, ht, rfl⟩
    · exact absurd h0 (occ_ne hg)
    · refine ⟨_, by rw [hv]; rfl, ?_⟩
      have := CustomPrints.mk (ha (help ++ str% "\nIn addition -ffoo and -fno-foo syntax are recognized.\n")) (.some (said_of ht))
      simpa only [List.append_assoc] using this
  · have hv : m.map.get? (str% "foo") = none := C117_not_given env _ (usual env) args p h m hm (dFoo env) hF hg
    refine ⟨_, by rw [hv], ?_⟩
    have := CustomPrints.mk (ha (help ++ str% "\nIn addition -ffoo and -fno-foo syntax are recognized.\n")) (.none hg)
    rw [List.append_nil] at this
    exact this

theorem prints_det {help : Str} {os : List Opt} {a b : Str} (ha : CustomPrints help os a) (hb : CustomPrints help os b) : a = b := by
  obtain ⟨h1, h2⟩ := ha
  obtain ⟨h1', h2'⟩ := hb
  rw [perhaps_det h1 h1']
  congr 1
  cases h2 with
  | some h => cases h2' with
    | some h' => cases h.symm.trans h'; rfl
    | none h' => exact absurd (said_mentions h) h'
  | none h => cases h2' with
    | some h' => exact absurd (said_mentions h') h
    | none => rfl

/-- **C122.** example/custom_syntax.cpp prints something else than the text of an exception exactly if the command line is accepted, and neither
`--help` nor `foo` is given twice, in whatever syntax. -/
theorem C122_custom_syntax (env : Env) (help : Str) (args : List Str) (hlen : args.length < 2147483648) (out : Str) :
    main env help args = .returns out ↔
      ∃ p, commandLine env args = .ok p ∧ AtMostOnce p.options (str% "help") ∧ AtMostOnce p.options (str% "foo") ∧ CustomPrints help p.options out := by
  constructor
  · intro h
    cases hp : commandLine env args with
    | error f => unfold main at h; rw [hp] at h; cases h
    | ok p =>
      rcases hs : store p {} with ⟨m, e⟩
      cases e with
      | none =>
        obtain ⟨out', h1, h2⟩ := runs help hp hs
        cases h1.symm.trans h
        obtain ⟨g1, g2⟩ := (stored_iff hlen hp).1 ⟨m, hs⟩
        exact ⟨p, rfl, g1, g2, h2⟩
      | some f =>
        unfold main at h
        rw [hp] at h
        dsimp only at h
        rw [hs] at h
        cases h
  · rintro ⟨p, hp, g1, g2, h2⟩
    obtain ⟨m, hm⟩ := (stored_iff hlen hp).2 ⟨g1, g2⟩
    obtain ⟨out', h1, h3⟩ := runs help hp hm
    rw [h1, prints_det h2 h3]

/-- Otherwise the handler in `main` gets an exception of the library. -/
theorem C122_custom_otherwise (env : Env) (help : Str) (args : List Str) (hno : ∀ out, main env help args ≠ .returns out) :
    ∃ f, main env help args = .caught f ∧ LibraryException f := by
  cases hp : commandLine env args with
  | error f =>
    exact ⟨f, by unfold main; rw [hp], C117_otherwise env _ (usual env) args f (.inl hp)⟩
  | ok p =>
    rcases hs : store p {} with ⟨m, e⟩
    cases e with
    | none =>
      obtain ⟨out', h1, -⟩ := runs help hp hs
      exact absurd h1 (hno _)
    | some f =>
      exact ⟨f, by unfold main; rw [hp]; dsimp only; rw [hs], C117_otherwise env _ (usual env) args f (.inr (.inl ⟨p, m, hp, hs⟩))⟩

example : main Test.env (str% "H") [str% "-ffoo", str% "--help"] =
    .returns (str% "H\nIn addition -ffoo and -fno-foo syntax are recognized.\nfoo value with the value of true\n") := by rfl
example : main Test.env (str% "H") [str% "-fno-foo"] = .returns (str% "foo value with the value of false\n") := by rfl
example : ∃ f, main Test.env (str% "H") [str% "-fno-foo", str% "--foo=x"] = .caught f := ⟨_, rfl⟩

end PO.CustomSyntax

namespace PO.ResponseFile
open Spec Extra
open Hierarchy (opt string strings occ_ne occ_nil)
open MultipleSources (vectorLine line_none line_some listLine_det occ_length)
open DescProgram (switch_iff)

def dHelp (env : Env) : OptionDesc := { shortName := [], longNames := [str% "help"], description := [], semantic := untypedValue env true }
def dPaths (env : Env) : OptionDesc := { shortName := str% "-I", longNames := [str% "include-path"], description := [], semantic := paths.toSemantic env }
def dMagic (env : Env) : OptionDesc := { shortName := [], longNames := [str% "magic"], description := [], semantic := number.toSemantic env }
def dFile (env : Env) : OptionDesc := { shortName := [], longNames := [str% "response-file"], description := [], semantic := string.toSemantic env }

theorem desc_eq (env : Env) : desc env = [dHelp env, dPaths env, dMagic env, dFile env] := rfl

def parser (env : Env) (additional : Option (Str → Str × Str)) : Cmdline := { desc := desc env, additional }

theorem commandLine_eq (env : Env) (args : List Str) : commandLine env args = (parser env (some Example.atOption)).parse args := rfl

theorem responseFile_eq (env : Env) (text : Str) : responseFile env text = (parser env none).parse (Example.words [] text) := rfl

theorem mem_desc {env : Env} {d : OptionDesc} : d ∈ desc env ↔ d = dHelp env ∨ d = dPaths env ∨ d = dMagic env ∨ d = dFile env := by
  rw [desc_eq]
  simp only [List.mem_cons, List.not_mem_nil, or_false]

theorem typed_paths : WellTyped paths := ⟨(by rintro q h; cases h), by rintro q h; cases h⟩
theorem typed_number : WellTyped number := ⟨(by rintro q h; cases h), by rintro q h; cases h⟩

theorem usual (env : Env) (e) : UsualParser env (parser env e) := by
  refine usualParser_of rfl (show active Style.defaultStyle Style.longCaseInsensitive = false from rfl)
    (show active Style.defaultStyle Style.shortCaseInsensitive = false from rfl) ?_ ?_ ?_ ?_
  · intro d hd
    rcases mem_desc.1 hd with rfl | rfl | rfl | rfl <;> exact List.cons_ne_nil _ _
  · show [str% "help", str% "-I", str% "include-path", str% "magic", str% "response-file"].Nodup
    decide
  · intro d hd
    rcases mem_desc.1 hd with rfl | rfl | rfl | rfl
    · exact .untyped true
    · exact .typed paths typed_paths rfl
    · exact .typed number typed_number rfl
    · exact .typed string typed_string rfl
  · intro q hq; cases hq

theorem minmax (env : Env) : ∀ d ∈ desc env, d.semantic.minTokens ≤ d.semantic.maxTokens := by
  intro d hd
  rcases mem_desc.1 hd with rfl | rfl | rfl | rfl
  · exact Nat.le_refl 0
  · exact Nat.le_refl 1
  · exact Nat.le_refl 1
  · exact Nat.le_refl 1

theorem own (env : Env) : OwnOptions env (desc env) where
  plain := (usual env none).plain
  named := (usual env none).named
  distinct := by
    intro d hd d' hd' h
    have h1 := (usual env none).cand hd
    have h2 := (usual env none).cand hd'
    rw [h, h1] at h2
    exact (List.cons.inj h2).1.symm

theorem source {env : Env} {e} {args : List Str} {p : Parsed} (h : (parser env e).parse args = .ok p) : SourceOf (desc env) p :=
  C121_command_line env _ (own env) _ (usual env e).toNamedParser (fun _ hd => hd) args p h

/-- The tokens that count, of two sources. -/
def both (p q : List Opt) (d : OptionDesc) : List (List Str) := heard d.semantic.isComposing [tokensOf p d.own, tokensOf q d.own]

theorem both_one (p : Parsed) (d : OptionDesc) : heardOf [p] d = both p.options [] d := by
  unfold heardOf both
  show heard _ [_] = heard _ [_, []]
  simp only [heard]
  cases d.semantic.isComposing <;> simp

theorem both_two (p q : Parsed) (d : OptionDesc) : heardOf [p, q] d = both p.options q.options d := rfl

theorem both_first {p q : List Opt} {d : OptionDesc} (hd : d.semantic.isComposing = false) (h : Mentions p d.own) : both p q d = tokensOf p d.own := by
  unfold both
  rw [hd]
  have : tokensOf p d.own ≠ [] := fun h' => tokensOf_nil.1 h' h
  simp [heard, this]

theorem both_second {p q : List Opt} {d : OptionDesc} (hd : d.semantic.isComposing = false) (h : ¬ Mentions p d.own) : both p q d = tokensOf q d.own := by
  unfold both
  rw [hd, tokensOf_nil.2 h]
  simp only [heard]
  split
  · rename_i h; cases h
  · split <;> simp_all

theorem both_paths (env : Env) (p q : List Opt) : both p q (dPaths env) = tokensOf p (str% "include-path") ++ tokensOf q (str% "include-path") := by
  show heard true [_, _] = _
  simp only [heard, if_true, List.append_nil]
  rfl

/-- How an option of this program is found in the map. -/
def Found (env : Env) (m : VarMap) (d : OptionDesc) (L : List (List Str)) : Prop :=
  L = [] ∧ m.map.get? d.own = none ∨
  L ≠ [] ∧ ∃ r, Gains env d.semantic L r ∧ m.map.get? d.own = some { v := r, defaulted := false, semantic := some d.semantic }

theorem no_default {env : Env} {d : OptionDesc} (hd : d ∈ desc env) : d.semantic.applyDefault = none := by
  rcases mem_desc.1 hd with rfl | rfl | rfl | rfl <;> rfl

theorem found {env : Env} {srcs : List Parsed} (hs : ∀ p ∈ srcs, SourceOf (desc env) p) {m : VarMap} (hm : Stores {} (srcs.map fun p => (p, false)) m)
    {d : OptionDesc} (hd : d ∈ desc env) : Found env m d (heardOf srcs d) := by
  by_cases h : ∃ p ∈ srcs, Mentions p.options d.own
  · obtain ⟨p, hp, hg⟩ := h
    refine .inr ⟨fun h0 => Joined.heardOf_nil.1 h0 p hp hg, ?_⟩
    exact C121_given env _ (own env) srcs hs m hm d hd p hp hg
  · have h : ∀ p ∈ srcs, ¬ Mentions p.options d.own := fun p hp hg => h ⟨p, hp, hg⟩
    refine .inl ⟨Joined.heardOf_nil.2 h, ?_⟩
    obtain ⟨h1, h2⟩ := C121_not_given env _ (own env) srcs hs m hm d hd h
    by_cases hk : ∃ p ∈ srcs, d ∈ p.desc
    · rw [h1 hk, no_default hd]; rfl
    · exact h2 fun p hp hd' => hk ⟨p, hp, hd'⟩

theorem found_is {env : Env} {m : VarMap} {d : OptionDesc} {L : List (List Str)} (h : Found env m d L) : (m.map.get? d.own).isSome = true ↔ L ≠ [] := by
  rcases h with ⟨h1, h2⟩ | ⟨h1, r, -, h2⟩ <;> rw [h2] <;> simp [h1]

theorem magic_line {env : Env} (print : Int → Str) {p q : List Opt} {m : VarMap} (h : Found env m (dMagic env) (both p q (dMagic env))) :
    (m.map.get? (str% "magic") = none ∧ MagicLine env print p q []) ∨
    ∃ v n, m.map.get? (str% "magic") = some v ∧ v.v = some (.scalar (.lex 0 n)) ∧ MagicLine env print p q (str% "Magic value: " ++ print n ++ ['\n']) := by
  rcases h with ⟨h1, h2⟩ | ⟨h1, r, hr, h2⟩
  · refine .inl ⟨h2, ?_⟩
    have hp : ¬ Mentions p (str% "magic") := by
      intro hg
      rw [both_first rfl hg] at h1
      exact tokensOf_nil.1 h1 hg
    rw [both_second rfl hp] at h1
    exact .none hp (tokensOf_nil.1 h1)
  · rcases (gains_number (t := number) rfl typed_number rfl rfl).1 hr with ⟨h0, -⟩ | ⟨t, n, ht, hn, rfl⟩
    · exact absurd h0 h1
    · refine .inr ⟨_, n, h2, rfl, ?_⟩
      by_cases hg : Mentions p (str% "magic")
      · rw [both_first rfl hg] at ht
        exact .first (said_of ht) hn
      · rw [both_second rfl hg] at ht
        exact .second hg (said_of ht) hn

theorem paths_line {env : Env} {p q : List Opt} {m : VarMap} (h : Found env m (dPaths env) (both p q (dPaths env))) :
    ∃ l, vectorLine m (str% "include-path") (str% "Include paths: ") = .ok l ∧
      ListLine (str% "Include paths: ") (Mentions p (str% "include-path") ∨ Mentions q (str% "include-path"))
        (said p (str% "include-path") ++ said q (str% "include-path")) l := by
  have hflat : (both p q (dPaths env)).flatten = said p (str% "include-path") ++ said q (str% "include-path") := by
    rw [both_paths, List.flatten_append]
    rfl
  rcases h with ⟨h1, h2⟩ | ⟨h1, r, hr, h2⟩
  · refine ⟨[], line_none h2, .none ?_⟩
    rw [both_paths, List.append_eq_nil_iff] at h1
    rintro (h | h)
    · exact tokensOf_nil.1 h1.1 h
    · exact tokensOf_nil.1 h1.2 h
  · rcases (gains_strings (t := paths) rfl typed_paths rfl rfl).1 hr with ⟨h0, -⟩ | ⟨-, rfl⟩
    · exact absurd h0 h1
    · refine ⟨_, line_some h2 rfl, ?_⟩
      rw [hflat]
      refine .some ?_
      by_cases hg : Mentions p (str% "include-path")
      · exact .inl hg
      · refine .inr ?_
        by_cases hq : Mentions q (str% "include-path")
        · exact hq
        · rw [both_paths, tokensOf_nil.2 hg, tokensOf_nil.2 hq] at h1
          exact absurd rfl h1

theorem report_prints {env : Env} (print : Int → Str) (help : Str) {p q : List Opt} {m : VarMap} {out : Str}
    (ho : Perhaps (Mentions p (str% "help")) help out) (h1 : Found env m (dPaths env) (both p q (dPaths env)))
    (h2 : Found env m (dMagic env) (both p q (dMagic env))) :
    ∃ all, report print out m = ⟨all, .exit 0⟩ ∧ ResponsePrints env print help p q all := by
  obtain ⟨l, hl, hl'⟩ := paths_line h1
  unfold report
  rw [hl]
  dsimp only
  rcases magic_line print h2 with ⟨h, hm⟩ | ⟨v, n, h, hv, hm⟩
  · refine ⟨_, by rw [h], ?_⟩
    have := ResponsePrints.mk ho hl' hm
    rw [List.append_nil] at this
    exact this
  · have has : v.as (.scalar (.lex 0)) = .ok (.scalar (.lex 0 n)) := by
      unfold VarValue.as
      rw [hv]
      rfl
    refine ⟨_, by rw [h]; dsimp only; rw [has], ?_⟩
    have := ResponsePrints.mk ho hl' hm
    simpa only [List.append_assoc] using this

theorem gain_paths {env : Env} (L : List (List Str)) : ∃ r, Gains env (paths.toSemantic env) L r := by
  by_cases hne : L = []
  · exact ⟨none, (gains_strings (t := paths) rfl typed_paths rfl rfl).2 (.inl ⟨hne, rfl⟩)⟩
  · exact ⟨_, (gains_strings (t := paths) rfl typed_paths rfl rfl).2 (.inr ⟨hne, rfl⟩)⟩

/-- What the options get from one source. -/
theorem fine_iff {env : Env} {e} {args : List Str} (hlen : args.length < 2147483648) {p : Parsed} (h : (parser env e).parse args = .ok p) :
    ((∃ r, Gains env (dHelp env).semantic (tokensOf p.options (str% "help")) r) ↔ AtMostOnce p.options (str% "help")) ∧
    ((∃ r, Gains env (dMagic env).semantic (tokensOf p.options (str% "magic")) r) ↔
      AtMostOnce p.options (str% "magic") ∧ IsNumber env 0 p.options (str% "magic")) ∧
    ((∃ r, Gains env (dFile env).semantic (tokensOf p.options (str% "response-file")) r) ↔ AtMostOnce p.options (str% "response-file")) := by
  have hv := C117_tokens env (parser env e) (usual env e) (minmax env) args hlen p h
  have hH : dHelp env ∈ desc env := mem_desc.2 (by simp)
  have hM : dMagic env ∈ desc env := mem_desc.2 (by simp)
  have hF : dFile env ∈ desc env := mem_desc.2 (by simp)
  have e1 := switch_iff (env := env) fun l hl => (hv (dHelp env) hH (by intro q hq; cases hq) l hl).2
  have e2 := number_iff (env := env) (t := number) rfl typed_number rfl rfl (hv (dMagic env) hM (by intro q hq; cases hq))
  have e3 := string_iff (env := env) (hv (dFile env) hF (by intro q hq; cases hq))
  exact ⟨e1.trans occ_length, e2.trans (and_congr occ_length Iff.rfl), e3.trans occ_length⟩

theorem stored_iff {env : Env} {args : List Str} {p : Parsed} (hlen : args.length < 2147483648) (h : commandLine env args = .ok p) :
    (∃ m, store p {} = (m, none)) ↔ ResponseFine env p.options := by
  rw [commandLine_eq] at h
  obtain ⟨e1, e2, e3⟩ := fine_iff hlen h
  rw [C117_stored env _ (usual env _) args p h]
  constructor
  · intro hall
    have h2 := e2.1 (hall _ (mem_desc.2 (by simp)))
    exact ⟨e1.1 (hall _ (mem_desc.2 (by simp))), h2.1, h2.2, e3.1 (hall _ (mem_desc.2 (by simp)))⟩
  · rintro ⟨h1, h2, h3, h4⟩ d hd
    rcases mem_desc.1 hd with rfl | rfl | rfl | rfl
    · exact e1.2 h1
    · exact gain_paths _
    · exact e2.2 ⟨h2, h3⟩
    · exact e3.2 h4

theorem stored_after {env : Env} {args args' : List Str} {p q : Parsed} (hlen : args.length < 2147483648) (hlen' : args'.length < 2147483648)
    (h : commandLine env args = .ok p) (h' : (parser env none).parse args' = .ok q) (hp : ResponseFine env p.options) :
    (∃ m, Stores {} ([p, q].map fun p => (p, false)) m) ↔ ResponseFineAfter env p.options q.options := by
  rw [commandLine_eq] at h
  obtain ⟨e1, e2, e3⟩ := fine_iff hlen h
  obtain ⟨f1, f2, f3⟩ := fine_iff hlen' h'
  obtain ⟨h1, h2, h3, h4⟩ := hp
  have hs : ∀ x ∈ [p, q], SourceOf (desc env) x := by
    intro x hx
    rcases List.mem_cons.1 hx with rfl | hx
    · exact source h
    · cases List.mem_singleton.1 hx; exact source h'
  rw [C121_stored env _ (own env) _ hs]
  constructor
  · intro hall
    refine ⟨fun hg => ?_, fun hg => ?_, fun hg => ?_⟩
    · have := hall (dHelp env) (mem_desc.2 (by simp))
      rw [both_two, both_second rfl hg] at this
      exact f1.1 this
    · have := hall (dMagic env) (mem_desc.2 (by simp))
      rw [both_two, both_second rfl hg] at this
      exact f2.1 this
    · have := hall (dFile env) (mem_desc.2 (by simp))
      rw [both_two, both_second rfl hg] at this
      exact f3.1 this
  · rintro ⟨g1, g2, g3⟩ d hd
    rw [both_two]
    rcases mem_desc.1 hd with rfl | rfl | rfl | rfl
    · by_cases hg : Mentions p.options (str% "help")
      · rw [both_first rfl hg]; exact e1.2 h1
      · rw [both_second rfl hg]; exact f1.2 (g1 hg)
    · exact gain_paths _
    · by_cases hg : Mentions p.options (str% "magic")
      · rw [both_first rfl hg]; exact e2.2 ⟨h2, h3⟩
      · rw [both_second rfl hg]; exact f2.2 (g2 hg)
    · by_cases hg : Mentions p.options (str% "response-file")
      · rw [both_first rfl hg]; exact e3.2 h4
      · rw [both_second rfl hg]; exact f3.2 (g3 hg)

/-- What the program does once the command line is stored. -/
theorem runs {env : Env} (print : Int → Str) (help : Str) (files : Str → Option Str) {args : List Str} (hlen : args.length < 2147483648)
    (hfiles : ∀ name text, files name = some text → (Example.words [] text).length < 2147483648) {p : Parsed} (h : commandLine env args = .ok p) {m : VarMap}
    (hm : store p {} = (m, none)) :
    (¬ Mentions p.options (str% "response-file") ∧ ∃ out, main env print help files args = ⟨out, .exit 0⟩ ∧ ResponsePrints env print help p.options [] out) ∨
    ∃ name a, said p.options (str% "response-file") = [name] ∧ Perhaps (Mentions p.options (str% "help")) help a ∧
      (files name = none ∧ main env print help files args = ⟨a ++ str% "Could not open the response file\n", .exit 1⟩ ∨
       ∃ text, files name = some text ∧
        ((∃ f, LibraryException f ∧ main env print help files args = ⟨a, .caught f⟩ ∧ ∀ q, responseFile env text = .ok q → ¬ ResponseFineAfter env p.options q.options) ∨
         ∃ q out, responseFile env text = .ok q ∧ ResponseFineAfter env p.options q.options ∧ main env print help files args = ⟨out, .exit 0⟩ ∧
          ResponsePrints env print help p.options q.options out)) := by
  have hfine := (stored_iff hlen h).1 ⟨m, hm⟩
  have hsrc : SourceOf (desc env) p := source (commandLine_eq env args ▸ h)
  have hS : Stores {} ([p].map fun p => (p, false)) m := .cons hm (.nil _)
  have hs1 : ∀ x ∈ [p], SourceOf (desc env) x := by
    intro x hx
    cases List.mem_singleton.1 hx
    exact hsrc
  have fnd : ∀ d ∈ desc env, Found env m d (both p.options [] d) := fun d hd => both_one p d ▸ found hs1 hS hd
  have hno : ∀ n, ¬ Mentions [] n := by rintro n ⟨o, ho, -⟩; cases ho
  have given : ∀ d ∈ desc env, d.semantic.isComposing = false → (both p.options [] d ≠ [] ↔ Mentions p.options d.own) := by
    intro d hd hc
    by_cases hg : Mentions p.options d.own
    · rw [both_first hc hg]
      exact ⟨fun _ => hg, fun _ h0 => tokensOf_nil.1 h0 hg⟩
    · rw [both_second hc hg, tokensOf_nil.2 (hno _)]
      exact ⟨fun h => absurd rfl h, fun h => absurd h hg⟩
  have hH : dHelp env ∈ desc env := mem_desc.2 (by simp)
  have hF : dFile env ∈ desc env := mem_desc.2 (by simp)
  have hhelp : (m.map.get? (str% "help")).isSome = true ↔ Mentions p.options (str% "help") := (found_is (fnd _ hH)).trans (given _ hH rfl)
  have ho := perhaps hhelp help
  have hmain : main env print help files args = (match m.map.get? (str% "response-file") with
      | none => report print (if (m.map.get? (str% "help")).isSome then help else []) m
      | some v =>
        match v.as (.scalar .str) with
        | .error f => ⟨if (m.map.get? (str% "help")).isSome then help else [], .caught f⟩
        | .ok (.scalar (.str name)) =>
          match files name with
          | none => ⟨(if (m.map.get? (str% "help")).isSome then help else []) ++ str% "Could not open the response file\n", .exit 1⟩
          | some text =>
            match responseFile env text with
            | .error f => ⟨if (m.map.get? (str% "help")).isSome then help else [], .caught f⟩
            | .ok q =>
              match store q m with
              | (_, some f) => ⟨if (m.map.get? (str% "help")).isSome then help else [], .caught f⟩
              | (m', none) => report print (if (m.map.get? (str% "help")).isSome then help else []) m'
        | .ok _ => ⟨if (m.map.get? (str% "help")).isSome then help else [], .caught .badAnyCast⟩) := by
    unfold main
    rw [h]
    dsimp only
    rw [hm]
    rfl
  generalize (if (m.map.get? (str% "help")).isSome then help else []) = a at ho hmain
  rw [hmain]
  rcases fnd _ hF with ⟨h1, h2⟩ | ⟨h1, r, hr, h2⟩
  · refine .inl ⟨fun hg => (given _ hF rfl).2 hg h1, ?_⟩
    have h2 : m.map.get? (str% "response-file") = none := h2
    rw [h2]
    exact report_prints print help ho (fnd _ (mem_desc.2 (by simp))) (fnd _ (mem_desc.2 (by simp)))
  · have hg := (given _ hF rfl).1 h1
    rw [both_first rfl hg] at hr
    rcases (gains_string (t := string) rfl typed_string rfl rfl).1 hr with ⟨h0, -⟩ | ⟨name, ht, rfl⟩
    · exact absurd hg (tokensOf_nil.1 h0)
    refine .inr ⟨name, a, said_of ht, ho, ?_⟩
    have h2 : m.map.get? (str% "response-file") = _ := h2
    rw [h2]
    dsimp only
    rw [show (VarValue.mk (some (.scalar (.str name))) false (some (dFile env).semantic)).as (.scalar .str) = .ok (.scalar (.str name)) from rfl]
    dsimp only
    cases hf : files name with
    | none => exact .inl ⟨rfl, rfl⟩
    | some text =>
      refine .inr ⟨text, rfl, ?_⟩
      dsimp only
      cases hq : responseFile env text with
      | error f =>
        refine .inl ⟨f, C117_otherwise env _ (usual env none) _ f (.inl hq), rfl, fun q h => by cases h⟩
      | ok q =>
        have hqs : SourceOf (desc env) q := source (responseFile_eq env text ▸ hq)
        have hafter := stored_after hlen (hfiles _ _ hf) h (responseFile_eq env text ▸ hq) hfine
        dsimp only
        rcases hst : store q m with ⟨m', e⟩
        cases e with
        | some f =>
          refine .inl ⟨f, C121_otherwise env _ (own env) _ hs1 m hS q hqs m' f hst, rfl, ?_⟩
          intro q' hq' hfa
          cases hq'
          obtain ⟨m2, hm2⟩ := hafter.2 hfa
          cases hm2 with
          | cons x1 x2 =>
            cases hm.symm.trans x1
            cases x2 with
            | cons y1 y2 => cases hst.symm.trans y1
        | none =>
          have hS2 : Stores {} ([p, q].map fun p => (p, false)) m' := .cons hm (.cons hst (.nil _))
          have hs2 : ∀ x ∈ [p, q], SourceOf (desc env) x := by
            intro x hx
            rcases List.mem_cons.1 hx with rfl | hx
            · exact hsrc
            · cases List.mem_singleton.1 hx; exact hqs
          have fnd2 : ∀ d ∈ desc env, Found env m' d (both p.options q.options d) := fun d hd => found hs2 hS2 hd
          obtain ⟨out, hr1, hr2⟩ := report_prints print help ho (fnd2 _ (mem_desc.2 (by simp))) (fnd2 _ (mem_desc.2 (by simp)))
          exact .inr ⟨q, out, rfl, hafter.1 ⟨m', hS2⟩, hr1, hr2⟩

theorem magic_det {env : Env} {print : Int → Str} {p q : List Opt} {a b : Str} (ha : MagicLine env print p q a) (hb : MagicLine env print p q b) : a = b := by
  cases ha with
  | first h hn => cases hb with
    | first h' hn' => cases h.symm.trans h'; cases hn.symm.trans hn'; rfl
    | second h0 => exact absurd (said_mentions h) h0
    | none h0 => exact absurd (said_mentions h) h0
  | second h0 h hn => cases hb with
    | first h' hn' => exact absurd (said_mentions h') h0
    | second _ h' hn' => cases h.symm.trans h'; cases hn.symm.trans hn'; rfl
    | none _ h' => exact absurd (said_mentions h) h'
  | none h0 h => cases hb with
    | first h' hn' => exact absurd (said_mentions h') h0
    | second _ h' hn' => exact absurd (said_mentions h') h
    | none => rfl

theorem prints_det {env : Env} {print : Int → Str} {help : Str} {p q : List Opt} {a b : Str} (ha : ResponsePrints env print help p q a)
    (hb : ResponsePrints env print help p q b) : a = b := by
  obtain ⟨h1, h2, h3⟩ := ha
  obtain ⟨h1', h2', h3'⟩ := hb
  rw [perhaps_det h1 h1', listLine_det h2 h2', magic_det h3 h3']

theorem not_stored {env : Env} (print : Int → Str) (help : Str) (files : Str → Option Str) {args : List Str}
    (h : ∀ p m, commandLine env args = .ok p → store p {} ≠ (m, none)) : ∃ f, LibraryException f ∧ main env print help files args = ⟨[], .caught f⟩ := by
  cases hp : commandLine env args with
  | error f => exact ⟨f, C117_otherwise env _ (usual env _) args f (.inl hp), by unfold main; rw [hp]⟩
  | ok p =>
    rcases hs : store p {} with ⟨m, e⟩
    cases e with
    | none => exact absurd hs (h p m hp)
    | some f => exact ⟨f, C117_otherwise env _ (usual env _) args f (.inr (.inl ⟨p, m, hp, hs⟩)), by unfold main; rw [hp]; dsimp only; rw [hs]⟩

section
variable (env : Env) (print : Int → Str) (help : Str) (files : Str → Option Str) (args : List Str) (hlen : args.length < 2147483648)
  (hfiles : ∀ name text, files name = some text → (Example.words [] text).length < 2147483648)
include hlen hfiles

/-- **C122.** example/response_file.cpp ends with 0 exactly if the command line is accepted and either names no response file, or names one that can be
opened and is accepted. The include paths are those of the command line followed by those of the file; the magic value is that of the command
line, or else that of the file. -/
theorem C122_response_file (out : Str) :
    main env print help files args = ⟨out, .exit 0⟩ ↔
      ∃ p, commandLine env args = .ok p ∧ ResponseFine env p.options ∧
        (¬ Mentions p.options (str% "response-file") ∧ ResponsePrints env print help p.options [] out ∨
         ∃ name text q, said p.options (str% "response-file") = [name] ∧ files name = some text ∧ responseFile env text = .ok q ∧
          ResponseFineAfter env p.options q.options ∧ ResponsePrints env print help p.options q.options out) := by
  constructor
  · intro h
    by_cases hst : ∃ p m, commandLine env args = .ok p ∧ store p {} = (m, none)
    · obtain ⟨p, m, hp, hm⟩ := hst
      refine ⟨p, hp, (stored_iff hlen hp).1 ⟨m, hm⟩, ?_⟩
      rcases runs print help files hlen hfiles hp hm with ⟨h1, out', h2, h3⟩ | ⟨name, a, h1, -, ⟨-, h3⟩ | ⟨text, h3, ⟨f, -, h4, -⟩ | ⟨q, out', h4, h5, h6, h7⟩⟩⟩
      · cases h2.symm.trans h
        exact .inl ⟨h1, h3⟩
      · cases h3.symm.trans h
      · cases h4.symm.trans h
      · cases h6.symm.trans h
        exact .inr ⟨name, text, q, h1, h3, h4, h5, h7⟩
    · obtain ⟨f, -, hf⟩ := not_stored print help files fun p m hp hm => hst ⟨p, m, hp, hm⟩
      cases hf.symm.trans h
  · rintro ⟨p, hp, hfine, hrest⟩
    obtain ⟨m, hm⟩ := (stored_iff hlen hp).2 hfine
    rcases runs print help files hlen hfiles hp hm with ⟨h1, out', h2, h3⟩ | ⟨name, a, h1, -, ⟨h2, h3⟩ | ⟨text, h3, ⟨f, -, h4, h5⟩ | ⟨q, out', h4, h5, h6, h7⟩⟩⟩
    · rcases hrest with ⟨-, hr⟩ | ⟨name, text, q, hn, -⟩
      · rw [h2, prints_det h3 hr]
      · exact absurd (said_mentions hn) h1
    · rcases hrest with ⟨hr, -⟩ | ⟨name', text, q, hn, hf, -⟩
      · exact absurd (said_mentions h1) hr
      · cases h1.symm.trans hn
        rw [h2] at hf
        cases hf
    · rcases hrest with ⟨hr, -⟩ | ⟨name', text', q, hn, hf, hq, hfa, -⟩
      · exact absurd (said_mentions h1) hr
      · cases h1.symm.trans hn
        cases h3.symm.trans hf
        exact absurd hfa (h5 q hq)
    · rcases hrest with ⟨hr, -⟩ | ⟨name', text', q', hn, hf, hq, hfa, hpr⟩
      · exact absurd (said_mentions h1) hr
      · cases h1.symm.trans hn
        cases h3.symm.trans hf
        cases h4.symm.trans hq
        rw [h6, prints_det h7 hpr]

/-- It ends with 1 exactly if the response file that is named cannot be opened. -/
theorem C122_not_opened (out : Str) :
    main env print help files args = ⟨out, .exit 1⟩ ↔
      ∃ p, commandLine env args = .ok p ∧ ResponseFine env p.options ∧ ∃ name a, said p.options (str% "response-file") = [name] ∧ files name = none ∧
        Perhaps (Mentions p.options (str% "help")) help a ∧ out = a ++ str% "Could not open the response file\n" := by
  constructor
  · intro h
    by_cases hst : ∃ p m, commandLine env args = .ok p ∧ store p {} = (m, none)
    · obtain ⟨p, m, hp, hm⟩ := hst
      refine ⟨p, hp, (stored_iff hlen hp).1 ⟨m, hm⟩, ?_⟩
      rcases runs print help files hlen hfiles hp hm with ⟨h1, out', h2, h3⟩ | ⟨name, a, h1, ha, ⟨h2, h3⟩ | ⟨text, h3, ⟨f, -, h4, -⟩ | ⟨q, out', h4, h5, h6, h7⟩⟩⟩
      · cases h2.symm.trans h
      · cases h3.symm.trans h
        exact ⟨name, a, h1, h2, ha, rfl⟩
      · cases h4.symm.trans h
      · cases h6.symm.trans h
    · obtain ⟨f, -, hf⟩ := not_stored print help files fun p m hp hm => hst ⟨p, m, hp, hm⟩
      cases hf.symm.trans h
  · rintro ⟨p, hp, hfine, name, a, hn, hf, ha, rfl⟩
    obtain ⟨m, hm⟩ := (stored_iff hlen hp).2 hfine
    rcases runs print help files hlen hfiles hp hm with ⟨h1, -⟩ | ⟨name', a', h1, ha', ⟨h2, h3⟩ | ⟨text, h3, -⟩⟩
    · exact absurd (said_mentions hn) h1
    · rw [h3, perhaps_det ha ha']
    · cases h1.symm.trans hn
      rw [h3] at hf
      cases hf

/-- Otherwise the handler in `main` gets an exception of the library; nothing has been printed, or the help. -/
theorem C122_response_otherwise (h0 : ∀ out, main env print help files args ≠ ⟨out, .exit 0⟩) (h1 : ∀ out, main env print help files args ≠ ⟨out, .exit 1⟩) :
    ∃ f out, main env print help files args = ⟨out, .caught f⟩ ∧ LibraryException f ∧
      (out = [] ∨ out = help ∧ ∃ p, commandLine env args = .ok p ∧ Mentions p.options (str% "help")) := by
  by_cases hst : ∃ p m, commandLine env args = .ok p ∧ store p {} = (m, none)
  · obtain ⟨p, m, hp, hm⟩ := hst
    rcases runs print help files hlen hfiles hp hm with ⟨-, out', h2, -⟩ | ⟨name, a, -, ha, ⟨-, h3⟩ | ⟨text, h3, ⟨f, hl, h4, -⟩ | ⟨q, out', h4, h5, h6, h7⟩⟩⟩
    · exact absurd h2 (h0 _)
    · exact absurd h3 (h1 _)
    · refine ⟨f, a, h4, hl, ?_⟩
      cases ha with
      | yes hg => exact .inr ⟨rfl, p, hp, hg⟩
      | no => exact .inl rfl
    · exact absurd h6 (h0 _)
  · obtain ⟨f, hl, hf⟩ := not_stored print help files fun p m hp hm => hst ⟨p, m, hp, hm⟩
    exact ⟨f, [], hf, hl, .inl rfl⟩

end

def Ex.file (n : Str) : Option Str := if n = str% "r" then some (str% "-I b --magic 5\n-Ic") else none
def Ex.print (n : Int) : Str := if n = 3 then str% "three" else str% "other"

example : main sourcesEnv Ex.print (str% "H") Ex.file [str% "-I", str% "a", str% "@r", str% "--magic=3"] =
    ⟨str% "Include paths: a b c \nMagic value: three\n", .exit 0⟩ := by rfl
example : main sourcesEnv Ex.print (str% "H") Ex.file [str% "--help", str% "@r"] = ⟨str% "HInclude paths: b c \nMagic value: other\n", .exit 0⟩ := by rfl
example : main sourcesEnv Ex.print (str% "H") Ex.file [str% "--help", str% "@s"] = ⟨str% "HCould not open the response file\n", .exit 1⟩ := by rfl
example : ∃ f, main sourcesEnv Ex.print (str% "H") Ex.file [str% "@r", str% "@r"] = ⟨[], .caught f⟩ := ⟨_, rfl⟩

end PO.ResponseFile
