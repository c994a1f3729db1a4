import Verif.Spec.Programs
import Verif.Props.OnceOnly
import Verif.Props.Given
/-
C114: what example/first.cpp, example/option_groups.cpp and example/real.cpp print.
-/
namespace PO
open Spec
open Hierarchy (occ_nil occ_ne)
open MultipleSources (said_one said_nil occ_length)

namespace Programs

/-- `parse_command_line` with the default style leaves out the program name. -/
theorem commandLine_eq (prog : Str) (args : List Str) (desc : List OptionDesc) : parseCommandLine (prog :: args) desc = ({ desc } : Cmdline).parse args := rfl

/-- The description, with what each option wants; none of the programs has an option for a wide string or a `bool` with a value. -/
structure Table (env : Env) (desc : List OptionDesc) (T : List (Str × Wants)) : Prop where
  fits : List.Forall₂ (fun d q => d.longNames = [q.1] ∧ OnceOnly env d.semantic q.2) desc T
  names : ∀ q ∈ T, q.1 ≠ [] ∧ '*' ∉ q.1
  distinct : (desc.flatMap ownNames).Nodup
  kinds : ∀ q ∈ T, q.2 = .nothing ∨ q.2 = .flag ∨ q.2 = .one .str ∨ ∃ ty, q.2 = .one (.lex ty)

variable {env : Env} {desc : List OptionDesc} {T : List (Str × Wants)}

theorem Table.parser (hT : Table env desc T) : OnceOnlyParser env { desc } :=
  onceOnlyParser_of (c := { desc }) rfl rfl (show active Style.defaultStyle Style.longCaseInsensitive = false from rfl)
    (show active Style.defaultStyle Style.shortCaseInsensitive = false from rfl) hT.fits hT.names hT.distinct

theorem Table.left (hT : Table env desc T) {d : OptionDesc} (hd : d ∈ desc) : ∃ q ∈ T, d.longNames = [q.1] ∧ OnceOnly env d.semantic q.2 := by
  have := hT.fits
  clear hT
  induction this with
  | nil => cases hd
  | cons h _ ih =>
    rcases List.mem_cons.1 hd with rfl | hd
    · exact ⟨_, by simp, h⟩
    · obtain ⟨q, hq, h'⟩ := ih hd
      exact ⟨q, by simp [hq], h'⟩

theorem Table.right (hT : Table env desc T) {q : Str × Wants} (hq : q ∈ T) : ∃ d ∈ desc, d.longNames = [q.1] ∧ OnceOnly env d.semantic q.2 := by
  have := hT.fits
  clear hT
  induction this with
  | nil => cases hq
  | cons h _ ih =>
    rcases List.mem_cons.1 hq with rfl | hq
    · exact ⟨_, by simp, h⟩
    · obtain ⟨d, hd, h'⟩ := ih hq
      exact ⟨d, by simp [hd], h'⟩

theorem Table.wants (hT : Table env desc T) {d : OptionDesc} {n : Str} {w w' : Wants} (hd : d ∈ desc) (hn : d.longNames = [n]) (hq : (n, w) ∈ T)
    (hw : OnceOnly env d.semantic w') {args : List Str} (hlen : args.length < 2147483648) {p : Parsed} (h : ({ desc } : Cmdline).parse args = .ok p)
    (ho : AtMostOnce p.options n ∧ ∀ o ∈ occurrences p.options n, ∃ v, OnceRead env w o.value v) :
    AtMostOnce p.options n ∧ ∀ o ∈ occurrences p.options n, ∃ v, OnceRead env w' o.value v := by
  obtain ⟨d', hd', hn', hw2⟩ := hT.right hq
  cases hT.parser.unique hd hd' hn hn'
  refine ⟨ho.1, fun o hoc => ?_⟩
  obtain ⟨v, hv⟩ := ho.2 o hoc
  have hocc : occurrences p.options n = [o] := by
    have h1 := ho.1
    unfold AtMostOnce at h1
    match hl : occurrences p.options n with
    | [] => rw [hl] at hoc; cases hoc
    | [o'] => rw [hl] at hoc; rw [List.mem_singleton.1 hoc]
    | _ :: _ :: _ => rw [hl] at h1; simp at h1
  have hp := hw.parse_all _ (hT.parser.values hlen h hd hn)
  have hp2 := hw2.parse_all _ (hT.parser.values hlen h hd hn)
  rcases (hp (some v)).1 ((hp2 (some v)).2 (.inr ⟨o.value, v, by rw [hocc]; rfl, hv, rfl⟩)) with ⟨-, h1⟩ | ⟨toks, v', h1, h2, -⟩
  · cases h1
  · rw [hocc] at h1; cases h1; exact ⟨v', h2⟩

/-- The command line is stored exactly if no option is given twice and the numbers are numbers. -/
theorem Table.succeeds (hT : Table env desc T) {args : List Str} (hlen : args.length < 2147483648) {p : Parsed} (h : ({ desc } : Cmdline).parse args = .ok p) :
    (∃ m, store p {} = (m, none)) ↔ ∀ q ∈ T, AtMostOnce p.options q.1 ∧ ∀ ty, q.2 = .one (.lex ty) → IsNumber env ty p.options q.1 := by
  rw [C113_succeeds env _ hT.parser args hlen p h]
  constructor
  · intro hall q hq
    obtain ⟨d, hd, hn, hw⟩ := hT.right hq
    obtain ⟨h1, h2⟩ := hall d hd q.1 q.2 hn hw
    refine ⟨h1, fun ty hty t ht => ?_⟩
    obtain ⟨o, ho, hto⟩ := List.mem_flatMap.1 ht
    obtain ⟨v, hv⟩ := h2 o ho
    rw [hty] at hv
    generalize o.value = ov at hv hto
    cases hv with
    | one hc =>
      cases List.mem_singleton.1 hto
      cases hc with
      | cast _ _ n hn => exact ⟨n, hn⟩
  · intro hall d hd n w hn hw
    obtain ⟨q, hq, hn', hw'⟩ := hT.left hd
    cases hn.symm.trans hn'
    refine hT.wants hd hn hq hw hlen h ⟨(hall q hq).1, fun o ho => ?_⟩
    have hv := hT.parser.values hlen h hd hn _ (List.mem_map_of_mem ho)
    have hnum := (hall q hq).2
    have htk := hw'.takes hv
    rcases hT.kinds q hq with hk | hk | hk | ⟨ty, hk⟩ <;> rw [hk] at htk ⊢
    · have htk : o.value = [] := htk
      rw [htk]
      exact ⟨_, .nothing⟩
    · have htk : o.value = [] := htk
      rw [htk]
      exact ⟨_, .flag⟩
    · obtain ⟨x, htk⟩ : ∃ x, o.value = [x] := htk
      rw [htk]
      exact ⟨_, .one (.string x)⟩
    · obtain ⟨x, htk⟩ : ∃ x, o.value = [x] := htk
      obtain ⟨n, hn⟩ := hnum ty hk x (List.mem_flatMap.2 ⟨o, ho, by rw [htk]; simp⟩)
      rw [htk]
      exact ⟨_, .one (.cast ty x n hn)⟩

/-- What the map has for an option that is given: -/
theorem Table.given (hT : Table env desc T) {args : List Str} (hlen : args.length < 2147483648) {p : Parsed} (h : ({ desc } : Cmdline).parse args = .ok p)
    {m : VarMap} (hm : store p {} = (m, none)) {n : Str} {w : Wants} (hq : (n, w) ∈ T) (hg : Mentions p.options n) :
    ∃ v s, OnceRead env w (said p.options n) v ∧ m.map.get? n = some { v := some v, defaulted := false, semantic := s } := by
  obtain ⟨d, hd, hn, hw⟩ := hT.right hq
  obtain ⟨o, v, h1, h2, h3⟩ := C113_given env _ hT.parser args hlen p h m hm d hd n w hn hw hg
  refine ⟨v, _, ?_, h3⟩
  rw [said_one (by rw [h1]; rfl)]
  exact h2

/-- and for one that is not, and has no default: -/
theorem Table.missing (hT : Table env desc T) {args : List Str} {p : Parsed} (h : ({ desc } : Cmdline).parse args = .ok p)
    {m : VarMap} (hm : store p {} = (m, none)) {d : OptionDesc} (hd : d ∈ desc) {n : Str} (hn : d.longNames = [n]) (hdf : d.semantic.applyDefault = none)
    (hg : ¬ Mentions p.options n) : m.map.get? n = none := by
  rw [C113_not_given env _ hT.parser args p h m hm d hd n hn hg, hdf]
  rfl

theorem Table.count_iff (hT : Table env desc T) {args : List Str} (hlen : args.length < 2147483648) {p : Parsed} (h : ({ desc } : Cmdline).parse args = .ok p)
    {m : VarMap} (hm : store p {} = (m, none)) {d : OptionDesc} (hd : d ∈ desc) {n : Str} (hn : d.longNames = [n]) (hdf : d.semantic.applyDefault = none) :
    count m n = true ↔ Mentions p.options n := by
  unfold count
  by_cases hg : Mentions p.options n
  · obtain ⟨q, hq, hn', -⟩ := hT.left hd
    cases hn.symm.trans hn'
    obtain ⟨v, s, -, hr⟩ := hT.given hlen h hm hq hg
    rw [hr]
    simp [hg]
  · rw [hT.missing h hm hd hn hdf hg]
    simp [hg]

theorem read_number {ty : Nat} {toks : List Str} {v : AVal} (h : OnceRead env (.one (.lex ty)) toks v) :
    ∃ t n, toks = [t] ∧ env.lex ty t = some n ∧ v = .scalar (.lex ty n) := by
  cases h with
  | one hc => cases hc with
    | cast _ _ n hn => exact ⟨_, n, rfl, hn, rfl⟩

theorem read_string {toks : List Str} {v : AVal} (h : OnceRead env (.one .str) toks v) : ∃ t, toks = [t] ∧ v = .scalar (.str t) := by
  cases h with
  | one hc => cases hc with
    | string => exact ⟨_, rfl, rfl⟩

theorem read_flag {toks : List Str} {v : AVal} (h : OnceRead env .flag toks v) : v = .scalar (.bool true) := by
  cases h
  rfl

theorem number_eq {m : VarMap} {name : Str} {ty : Nat} {n : Int} {b : Bool} {s : Option ValueSemantic}
    (h : m.map.get? name = some { v := some (.scalar (.lex ty n)), defaulted := b, semantic := s }) : number m name ty = .ok n := by
  unfold number VarMap.get
  rw [h]
  simp only [Option.getD_some, VarValue.as, AVal.type, SVal.type, if_pos]

theorem said_mentions {os : List Opt} {name t : Str} (h : said os name = [t]) : Mentions os name := MultipleSources.mentions_said h

/-! ### example/first.cpp -/

def firstTable : List (Str × Wants) := [(str% "help", .nothing), (str% "compression", .one (.lex 0))]

theorem first_table (env : Env) : Table env (firstDesc env) firstTable where
  fits := .cons ⟨rfl, .switch⟩ (.cons ⟨rfl, .one _ _ rfl rfl rfl rfl rfl⟩ .nil)
  names := by decide
  distinct := (by decide : [str% "help", str% "compression"].Nodup)
  kinds := by
    intro q hq
    simp only [firstTable, List.mem_cons, List.not_mem_nil, or_false] at hq
    rcases hq with rfl | rfl
    · exact .inl rfl
    · exact .inr (.inr (.inr ⟨_, rfl⟩))

theorem first_runs (env : Env) (print : Int → Str) (help : Str) (prog : Str) {args : List Str} (hlen : args.length < 2147483648) {p : Parsed}
    (h : ({ desc := firstDesc env } : Cmdline).parse args = .ok p) {m : VarMap} (hm : store p {} = (m, none)) :
    ∃ out, first env print help (prog :: args) = .exits 0 out ∧ FirstPrints env print help p.options out := by
  have hnot : m.notify.2 = none := by
    cases hf : m.notify.2 with
    | none => rfl
    | some f =>
      exfalso
      obtain ⟨e, he, s, hs, hnf⟩ := (C38_required [(p, false)] m (.ok hm (.nil _))).2 (by
        rintro k n ⟨q, hq, d, hd, -, -, hr, -⟩
        cases List.mem_singleton.1 hq
        rw [(Spec.OnceOnlyParser.run_of h).1] at hd
        rcases List.mem_cons.1 hd with rfl | hd
        · cases hr
        · cases List.mem_singleton.1 hd; cases hr) f hf
      have hS : Stores {} [(p, false)] m := .cons hm (.nil _)
      have hord := stores_ordered hS ordered_empty
      obtain ⟨q, hq, d, hd, hsem, -⟩ := stores_option hS (k := e.1) (v := e.2) ((SMap.get?_eq_some hord.map e.1 e.2).2 he)
      cases List.mem_singleton.1 hq
      rw [(Spec.OnceOnlyParser.run_of h).1] at hd
      rw [hs] at hsem
      cases hsem
      rcases List.mem_cons.1 hd with rfl | hd
      · cases hnf
      · cases List.mem_singleton.1 hd; cases hnf
  have hmain : first env print help (prog :: args) = firstReport print help m := by
    unfold first Hierarchy.load
    rw [commandLine_eq, h]
    simp only [hm]
    cases hn : m.notify with
    | mk es e =>
      rw [hn] at hnot
      cases hnot
      rfl
  rw [hmain]
  unfold firstReport
  have hT := first_table env
  have c1 : count m (str% "help") = true ↔ Mentions p.options (str% "help") := hT.count_iff hlen h hm (.head _) rfl rfl
  have c2 : count m (str% "compression") = true ↔ Mentions p.options (str% "compression") :=
    hT.count_iff hlen h hm (.tail _ (.head _)) rfl rfl
  by_cases hh : Mentions p.options (str% "help")
  · rw [if_pos (c1.2 hh)]
    exact ⟨_, rfl, .help hh⟩
  · rw [if_neg (fun hc => hh (c1.1 hc))]
    by_cases hl : Mentions p.options (str% "compression")
    · rw [if_pos (c2.2 hl)]
      obtain ⟨v, s, hr, hg⟩ := hT.given hlen h hm (.tail _ (.head _)) hl
      obtain ⟨t, n, ht, hn, rfl⟩ := read_number hr
      rw [number_eq hg]
      exact ⟨_, rfl, .level hh ht hn⟩
    · rw [if_neg (fun hc => hl (c2.1 hc))]
      exact ⟨_, rfl, .unset hh hl⟩

theorem firstPrints_det {env : Env} {print : Int → Str} {help : Str} {os : List Opt} {a b : Str} (ha : FirstPrints env print help os a)
    (hb : FirstPrints env print help os b) : a = b := by
  cases ha with
  | help h => cases hb with
    | help => rfl
    | level h' | unset h' => exact absurd h h'
  | level hh h hn => cases hb with
    | help h' => exact absurd h' hh
    | level _ h' hn' => rw [h] at h'; cases h'; rw [hn] at hn'; cases hn'; rfl
    | unset _ h' => exact absurd (said_mentions h) h'
  | unset hh h => cases hb with
    | help h' => exact absurd h' hh
    | level _ h' => exact absurd (said_mentions h') h
    | unset => rfl

/-! ### example/option_groups.cpp -/

def groupsTable : List (Str × Wants) :=
  [(str% "help", .nothing), (str% "help-module", .one .str), (str% "version", .nothing), (str% "display", .one .str), (str% "num-threads", .one (.lex 0))]

theorem groups_table (env : Env) : Table env (general env ++ gui env ++ backend env) groupsTable where
  fits := .cons ⟨rfl, .switch⟩ (.cons ⟨rfl, .one _ _ rfl rfl rfl rfl rfl⟩ (.cons ⟨rfl, .switch⟩ (.cons ⟨rfl, .one _ _ rfl rfl rfl rfl rfl⟩
    (.cons ⟨rfl, .one _ _ rfl rfl rfl rfl rfl⟩ .nil))))
  names := by decide
  distinct := (by decide : [str% "help", str% "help-module", str% "version", str% "display", str% "num-threads"].Nodup)
  kinds := by
    intro q hq
    simp only [groupsTable, List.mem_cons, List.not_mem_nil, or_false] at hq
    rcases hq with rfl | rfl | rfl | rfl | rfl <;> simp

theorem groups_runs (env : Env) (print : Int → Str) (texts : GroupTexts) (prog : Str) {args : List Str} (hlen : args.length < 2147483648) {p : Parsed}
    (h : ({ desc := general env ++ gui env ++ backend env } : Cmdline).parse args = .ok p) {m : VarMap} (hm : store p {} = (m, none)) :
    ∃ code out, groups env print texts (prog :: args) = .exits code out ∧ GroupsPrints env print texts p.options code out := by
  have hmain : groups env print texts (prog :: args) = groupsReport print texts m := by
    unfold groups
    rw [commandLine_eq, h]
    simp only [hm]
  rw [hmain]
  unfold groupsReport
  have hT := groups_table env
  have c1 : count m (str% "help") = true ↔ Mentions p.options (str% "help") := hT.count_iff hlen h hm (.head _) rfl rfl
  have c2 : count m (str% "help-module") = true ↔ Mentions p.options (str% "help-module") :=
    hT.count_iff hlen h hm (.tail _ (.head _)) rfl rfl
  have c3 : count m (str% "num-threads") = true ↔ Mentions p.options (str% "num-threads") :=
    hT.count_iff hlen h hm (.tail _ (.tail _ (.tail _ (.tail _ (.head _))))) rfl rfl
  by_cases hh : Mentions p.options (str% "help")
  · rw [if_pos (c1.2 hh)]
    exact ⟨_, _, rfl, .help hh⟩
  · rw [if_neg (fun hc => hh (c1.1 hc))]
    by_cases hl : Mentions p.options (str% "help-module")
    · rw [if_pos (c2.2 hl)]
      obtain ⟨v, s, hr, hg⟩ := hT.given hlen h hm (.tail _ (.head _)) hl
      obtain ⟨t, ht, rfl⟩ := read_string hr
      have has : (m.get (str% "help-module")).as (.scalar .str) = .ok (.scalar (.str t)) := by
        unfold VarMap.get
        rw [hg]
        rfl
      rw [has]
      dsimp only
      by_cases h1 : t = str% "gui"
      · rw [if_pos h1]
        exact ⟨_, _, rfl, .gui hh (h1 ▸ ht)⟩
      · rw [if_neg h1]
        by_cases h2 : t = str% "backend"
        · rw [if_pos h2]
          exact ⟨_, _, rfl, .backend hh (h2 ▸ ht)⟩
        · rw [if_neg h2]
          exact ⟨_, _, rfl, .unknown hh ht h1 h2⟩
    · rw [if_neg (fun hc => hl (c2.1 hc))]
      by_cases hn : Mentions p.options (str% "num-threads")
      · rw [if_pos (c3.2 hn)]
        obtain ⟨v, s, hr, hg⟩ := hT.given hlen h hm (.tail _ (.tail _ (.tail _ (.tail _ (.head _))))) hn
        obtain ⟨t, n, ht, hn, rfl⟩ := read_number hr
        rw [number_eq hg]
        exact ⟨_, _, rfl, .threads hh hl ht hn⟩
      · rw [if_neg (fun hc => hn (c3.1 hc))]
        exact ⟨_, _, rfl, .nothing hh hl hn⟩

theorem groupsPrints_det {env : Env} {print : Int → Str} {texts : GroupTexts} {os : List Opt} {c c' : Nat} {a b : Str}
    (ha : GroupsPrints env print texts os c a) (hb : GroupsPrints env print texts os c' b) : c = c' ∧ a = b := by
  cases ha with
  | help h => cases hb with
    | help => exact ⟨rfl, rfl⟩
    | gui h' | backend h' | unknown h' | threads h' | nothing h' => exact absurd h h'
  | gui hh h => cases hb with
    | help h' => exact absurd h' hh
    | gui => exact ⟨rfl, rfl⟩
    | backend _ h' => rw [h] at h'; exact absurd h' (by decide)
    | unknown _ h' h1 => rw [h] at h'; cases h'; exact absurd rfl h1
    | threads _ h' | nothing _ h' => exact absurd (said_mentions h) h'
  | backend hh h => cases hb with
    | help h' => exact absurd h' hh
    | backend => exact ⟨rfl, rfl⟩
    | gui _ h' => rw [h] at h'; exact absurd h' (by decide)
    | unknown _ h' _ h2 => rw [h] at h'; cases h'; exact absurd rfl h2
    | threads _ h' | nothing _ h' => exact absurd (said_mentions h) h'
  | unknown hh h h1 h2 => cases hb with
    | help h' => exact absurd h' hh
    | gui _ h' => rw [h] at h'; cases h'; exact absurd rfl h1
    | backend _ h' => rw [h] at h'; cases h'; exact absurd rfl h2
    | unknown _ h' => rw [h] at h'; cases h'; exact ⟨rfl, rfl⟩
    | threads _ h' | nothing _ h' => exact absurd (said_mentions h) h'
  | threads hh hm h hn => cases hb with
    | help h' => exact absurd h' hh
    | gui _ h' | backend _ h' | unknown _ h' => exact absurd (said_mentions h') hm
    | threads _ _ h' hn' => rw [h] at h'; cases h'; rw [hn] at hn'; cases hn'; exact ⟨rfl, rfl⟩
    | nothing _ _ h' => exact absurd (said_mentions h) h'
  | nothing hh hm h => cases hb with
    | help h' => exact absurd h' hh
    | gui _ h' | backend _ h' | unknown _ h' => exact absurd (said_mentions h') hm
    | threads _ _ h' => exact absurd (said_mentions h') h
    | nothing => exact ⟨rfl, rfl⟩

/-! ### example/real.cpp -/

def realTable : List (Str × Wants) :=
  [(str% "help", .nothing), (str% "output", .one .str), (str% "macrofile", .one .str), (str% "two", .flag), (str% "body", .flag),
   (str% "libmakfile", .one .str), (str% "mainpackage", .one .str), (str% "depends", .one .str), (str% "sources", .one .str), (str% "root", .one .str)]

theorem real_table (env : Env) : Table env (realDesc env) realTable where
  fits := .cons ⟨rfl, .switch⟩ (.cons ⟨rfl, .one _ _ rfl rfl rfl rfl rfl⟩ (.cons ⟨rfl, .one _ _ rfl rfl rfl rfl rfl⟩
    (.cons ⟨rfl, .flag _ rfl rfl rfl rfl rfl⟩ (.cons ⟨rfl, .flag _ rfl rfl rfl rfl rfl⟩ (.cons ⟨rfl, .one _ _ rfl rfl rfl rfl rfl⟩
    (.cons ⟨rfl, .one _ _ rfl rfl rfl rfl rfl⟩ (.cons ⟨rfl, .one _ _ rfl rfl rfl rfl rfl⟩ (.cons ⟨rfl, .one _ _ rfl rfl rfl rfl rfl⟩
    (.cons ⟨rfl, .one _ _ rfl rfl rfl rfl rfl⟩ .nil)))))))))
  names := by decide
  distinct := (by decide : [str% "-h", str% "help", str% "-o", str% "output", str% "-m", str% "macrofile", str% "-t", str% "two", str% "-b", str% "body",
    str% "-l", str% "libmakfile", str% "-p", str% "mainpackage", str% "-d", str% "depends", str% "-s", str% "sources", str% "-r", str% "root"].Nodup)
  kinds := by
    intro q hq
    simp only [realTable, List.mem_cons, List.not_mem_nil, or_false] at hq
    rcases hq with rfl | rfl | rfl | rfl | rfl | rfl | rfl | rfl | rfl | rfl <;> simp

/-- One check of the program. -/
def check (m : VarMap) : Rule → Except Str Unit
  | .conflict a b => conflictingOptions m a b
  | .needs a b => optionDependency m a b

theorem check_eq {p : Parsed} {m : VarMap} (hm : store p {} = (m, none)) (r : Rule) :
    (r.Broken p.options ∧ check m r = .error r.text) ∨ (¬ r.Broken p.options ∧ check m r = .ok ()) := by
  have hS : Stores {} [(p, false)] m := .cons hm (.nil _)
  cases r with
  | conflict a b =>
    have := C106_conflicting _ m hS a b
    simp only [List.mem_singleton, exists_eq_left] at this
    simp only [check, conflictingOptions, Rule.Broken, Rule.text, ← this]
    cases Example.conflicting m a b <;> simp
  | needs a b =>
    have := C106_dependency _ m hS a b
    simp only [List.mem_singleton, exists_eq_left, forall_eq] at this
    simp only [check, optionDependency, Rule.Broken, Rule.text, ← this]
    cases Example.dependencyMissing m a b <;> simp

def checks (m : VarMap) : List Rule → Except Str Unit
  | [] => .ok ()
  | r :: rs => match check m r with
    | .error t => .error t
    | .ok () => checks m rs

theorem checks_eq {p : Parsed} {m : VarMap} (hm : store p {} = (m, none)) (rs : List Rule) :
    (∃ r, FirstBroken p.options rs r ∧ checks m rs = .error r.text) ∨ (∀ r ∈ rs, ¬ r.Broken p.options) ∧ checks m rs = .ok () := by
  induction rs with
  | nil => exact .inr ⟨by simp, rfl⟩
  | cons r rs ih =>
    rw [checks]
    rcases check_eq hm r with ⟨h1, h2⟩ | ⟨h1, h2⟩ <;> rw [h2]
    · exact .inl ⟨r, ⟨[], rs, rfl, by simp, h1⟩, rfl⟩
    · rcases ih with ⟨r', ⟨bf, af, rfl, h3, h4⟩, h5⟩ | ⟨h3, h4⟩
      · refine .inl ⟨r', ⟨r :: bf, af, rfl, ?_, h4⟩, h5⟩
        intro x hx
        rcases List.mem_cons.1 hx with rfl | hx
        · exact h1
        · exact h3 x hx
      · refine .inr ⟨?_, h4⟩
        intro x hx
        rcases List.mem_cons.1 hx with rfl | hx
        · exact h1
        · exact h3 x hx

/-- The check that is made twice makes no difference. -/
theorem realChecks_eq (m : VarMap) : realChecks m = checks m realRules := by
  unfold realChecks
  simp only [checks, realRules, check, bind, Except.bind]
  rcases conflictingOptions m (str% "output") (str% "two") with _ | ⟨⟨⟩⟩
  · rfl
  dsimp only
  rcases conflictingOptions m (str% "output") (str% "body") with _ | ⟨⟨⟩⟩
  · rfl
  dsimp only
  rcases conflictingOptions m (str% "output") (str% "mainpackage") with _ | ⟨⟨⟩⟩
  · rfl
  dsimp only
  rcases conflictingOptions m (str% "two") (str% "mainpackage") with _ | ⟨⟨⟩⟩
  · rfl
  dsimp only
  rcases conflictingOptions m (str% "body") (str% "mainpackage") with _ | ⟨⟨⟩⟩
  · rfl
  dsimp only
  rcases conflictingOptions m (str% "two") (str% "body") with _ | ⟨⟨⟩⟩
  · rfl
  dsimp only
  rcases conflictingOptions m (str% "libmakfile") (str% "mainpackage") with _ | ⟨⟨⟩⟩
  · rfl
  dsimp only
  rcases optionDependency m (str% "depends") (str% "mainpackage") with _ | ⟨⟨⟩⟩
  · rfl
  dsimp only
  rcases optionDependency m (str% "sources") (str% "mainpackage") with _ | ⟨⟨⟩⟩
  · rfl
  dsimp only
  rcases optionDependency m (str% "root") (str% "mainpackage") with _ | ⟨⟨⟩⟩
  · rfl
  rfl

theorem real_runs (env : Env) (help : Str) (prog : Str) {args : List Str} (hlen : args.length < 2147483648) {p : Parsed}
    (h : ({ desc := realDesc env } : Cmdline).parse args = .ok p) {m : VarMap} (hm : store p {} = (m, none)) :
    RealPrints help p.options (real env help (prog :: args)) := by
  have hmain : real env help (prog :: args) = realReport help m := by
    unfold real
    rw [commandLine_eq, h]
    simp only [hm]
  rw [hmain]
  unfold realReport
  have hT := real_table env
  have c1 : count m (str% "help") = true ↔ Mentions p.options (str% "help") := hT.count_iff hlen h hm (.head _) rfl rfl
  by_cases hh : Mentions p.options (str% "help")
  · rw [if_pos (c1.2 hh)]
    exact .help hh
  · rw [if_neg (fun hc => hh (c1.1 hc)), realChecks_eq]
    rcases checks_eq hm realRules with ⟨r, h1, h2⟩ | ⟨h1, h2⟩ <;> rw [h2]
    · exact .broken hh h1
    · by_cases ht : Mentions p.options (str% "two")
      · obtain ⟨v, s, hr, hg⟩ := hT.given hlen h hm (.tail _ (.tail _ (.tail _ (.head _)))) ht
        have has : (m.get (str% "two")).as (.scalar .bool) = .ok (.scalar (.bool true)) := by
          unfold VarMap.get
          rw [hg]
          rw [read_flag hr]
          rfl
        rw [has]
        exact .two hh h1 ht
      · have hg := C113_not_given env _ hT.parser args p h m hm _ (.tail _ (.tail _ (.tail _ (.head _)))) (str% "two") rfl ht
        have has : (m.get (str% "two")).as (.scalar .bool) = .ok (.scalar (.bool false)) := by
          unfold VarMap.get
          rw [hg]
          rfl
        rw [has]
        exact .notTwo hh h1 ht

theorem firstBroken_det {os : List Opt} {rs : List Rule} {a b : Rule} (ha : FirstBroken os rs a) (hb : FirstBroken os rs b) : a = b := by
  obtain ⟨ba, aa, rfl, h1, h2⟩ := ha
  obtain ⟨bb, ab, he, h3, h4⟩ := hb
  induction ba generalizing bb with
  | nil =>
    cases bb with
    | nil => cases he; rfl
    | cons x xs => cases he; exact absurd h2 (h3 _ (by simp))
  | cons y ys ih =>
    cases bb with
    | nil => cases he; exact absurd h4 (h1 _ (by simp))
    | cons x xs =>
      rw [List.cons_append, List.cons_append] at he
      injection he with _ he
      exact ih (fun z hz => h1 z (by simp [hz])) xs he (fun z hz => h3 z (by simp [hz]))

theorem realPrints_det {help : Str} {os : List Opt} {a b : Ending} (ha : RealPrints help os a) (hb : RealPrints help os b) : a = b := by
  have nope : ∀ {r : Rule}, FirstBroken os realRules r → (∀ r ∈ realRules, ¬ r.Broken os) → False := by
    rintro r ⟨bf, af, he, -, hr⟩ hall
    exact hall r (by rw [he]; simp) hr
  cases ha with
  | help h => cases hb with
    | help => rfl
    | broken h' | two h' | notTwo h' => exact absurd h h'
  | broken hh h => cases hb with
    | help h' => exact absurd h' hh
    | broken _ h' => rw [firstBroken_det h h']
    | two _ h' | notTwo _ h' => exact (nope h h').elim
  | two hh h ht => cases hb with
    | help h' => exact absurd h' hh
    | broken _ h' => exact (nope h' h).elim
    | two => rfl
    | notTwo _ _ ht' => exact absurd ht ht'
  | notTwo hh h ht => cases hb with
    | help h' => exact absurd h' hh
    | broken _ h' => exact (nope h' h).elim
    | two _ _ ht' => exact absurd ht' ht
    | notTwo => rfl

/-- A program that reads the command line and goes on with the map. -/
theorem Table.program (hT : Table env desc T) {args : List Str} (hlen : args.length < 2147483648) {e : Ending}
    (hp : ∀ f, ({ desc } : Cmdline).parse args = .error f → e = .caught f)
    (hs : ∀ p m f, ({ desc } : Cmdline).parse args = .ok p → store p {} = (m, some f) → e = .caught f) {Q : List Opt → Prop}
    (hQ : ∀ p m, ({ desc } : Cmdline).parse args = .ok p → store p {} = (m, none) → Q p.options) :
    (∃ f, e = .caught f) ∧ (¬ ∃ p, ({ desc } : Cmdline).parse args = .ok p ∧
        ∀ q ∈ T, AtMostOnce p.options q.1 ∧ ∀ ty, q.2 = .one (.lex ty) → IsNumber env ty p.options q.1) ∨
      ∃ p, ({ desc } : Cmdline).parse args = .ok p ∧
        (∀ q ∈ T, AtMostOnce p.options q.1 ∧ ∀ ty, q.2 = .one (.lex ty) → IsNumber env ty p.options q.1) ∧ Q p.options := by
  cases h : ({ desc } : Cmdline).parse args with
  | error f => exact .inl ⟨⟨f, hp f h⟩, fun ⟨_, h', _⟩ => by cases h'⟩
  | ok p =>
    cases hst : store p {} with
    | mk m o =>
      cases o with
      | none => exact .inr ⟨p, rfl, (hT.succeeds hlen h).1 ⟨m, hst⟩, hQ p m h hst⟩
      | some f =>
        refine .inl ⟨⟨f, hs p m f h hst⟩, ?_⟩
        rintro ⟨p', h', hall⟩
        cases h'
        obtain ⟨m', hm'⟩ := (hT.succeeds hlen h).2 hall
        rw [hst] at hm'
        cases hm'

theorem Table.exception (hT : Table env desc T) (ht : ∀ d ∈ desc, ∃ T, Narrow d.semantic T) {args : List Str} {e : Ending}
    (hp : ∀ f, ({ desc } : Cmdline).parse args = .error f → e = .caught f)
    (hs : ∀ p m f, ({ desc } : Cmdline).parse args = .ok p → store p {} = (m, some f) → e = .caught f)
    (hQ : ∀ p m, ({ desc } : Cmdline).parse args = .ok p → store p {} = (m, none) → ¬ ∃ f, e = .caught f) {f : Fail} (h : e = .caught f) : LibraryException f := by
  rcases C113_otherwise env _ hT.parser ht args with ⟨p, m, h1, h2⟩ | ⟨g, h1, h2⟩ | ⟨p, m, g, h1, h2, h3⟩
  · exact absurd ⟨f, h⟩ (hQ p m h1 h2)
  · cases h.symm.trans (hp g h1); exact h2
  · cases h.symm.trans (hs p m g h1 h2); exact h3

theorem first_error (env : Env) (print : Int → Str) (help : Str) (prog : Str) (args : List Str) :
    (∀ f, ({ desc := firstDesc env } : Cmdline).parse args = .error f → first env print help (prog :: args) = .caught f) ∧
    ∀ p m f, ({ desc := firstDesc env } : Cmdline).parse args = .ok p → store p {} = (m, some f) → first env print help (prog :: args) = .caught f := by
  constructor
  · intro f h
    unfold first Hierarchy.load
    rw [commandLine_eq, h]
  · intro p m f h hs
    unfold first Hierarchy.load
    simp only [commandLine_eq, h, hs]

theorem groups_error (env : Env) (print : Int → Str) (texts : GroupTexts) (prog : Str) (args : List Str) :
    (∀ f, ({ desc := general env ++ gui env ++ backend env } : Cmdline).parse args = .error f → groups env print texts (prog :: args) = .caught f) ∧
    ∀ p m f, ({ desc := general env ++ gui env ++ backend env } : Cmdline).parse args = .ok p → store p {} = (m, some f) → groups env print texts (prog :: args) = .caught f := by
  constructor
  · intro f h
    unfold groups
    rw [commandLine_eq, h]
  · intro p m f h hs
    unfold groups
    simp only [commandLine_eq, h, hs]

theorem real_error (env : Env) (help : Str) (prog : Str) (args : List Str) :
    (∀ f, ({ desc := realDesc env } : Cmdline).parse args = .error f → real env help (prog :: args) = .caught f) ∧
    ∀ p m f, ({ desc := realDesc env } : Cmdline).parse args = .ok p → store p {} = (m, some f) → real env help (prog :: args) = .caught f := by
  constructor
  · intro f h
    unfold real
    rw [commandLine_eq, h]
  · intro p m f h hs
    unfold real
    simp only [commandLine_eq, h, hs]

end Programs
open Programs

/-- **C114.** example/first.cpp ends without an exception exactly if the command line is accepted, has each option at most once and a number for the
compression, and prints then what `FirstPrints` says. -/
theorem C114_first (env : Env) (print : Int → Str) (help : Str) (prog : Str) (args : List Str) (hlen : args.length < 2147483648) (code : Nat) (out : Str) :
    first env print help (prog :: args) = .exits code out ↔ code = 0 ∧ ∃ p, ({ desc := firstDesc env } : Cmdline).parse args = .ok p ∧
      AtMostOnce p.options (str% "help") ∧ AtMostOnce p.options (str% "compression") ∧ IsNumber env 0 p.options (str% "compression") ∧
      FirstPrints env print help p.options out := by
  have hall : ∀ os, (∀ q ∈ firstTable, AtMostOnce os q.1 ∧ ∀ ty, q.2 = .one (.lex ty) → IsNumber env ty os q.1) ↔
      AtMostOnce os (str% "help") ∧ AtMostOnce os (str% "compression") ∧ IsNumber env 0 os (str% "compression") := by
    intro os
    simp [firstTable]
  obtain ⟨e1, e2⟩ := first_error env print help prog args
  have := (first_table env).program hlen e1 e2 (Q := fun os => ∃ out, first env print help (prog :: args) = .exits 0 out ∧ FirstPrints env print help os out)
    fun p m h hm => first_runs env print help prog hlen h hm
  simp only [hall] at this
  rcases this with ⟨⟨f, h1⟩, h2⟩ | ⟨p, h1, h2, out', h3, h4⟩
  · rw [h1]
    refine ⟨nofun, ?_⟩
    rintro ⟨-, p, hp, a1, a2, a3, -⟩
    exact absurd ⟨p, hp, a1, a2, a3⟩ h2
  · rw [h3]
    constructor
    · intro h; cases h; exact ⟨rfl, p, h1, h2.1, h2.2.1, h2.2.2, h4⟩
    · rintro ⟨rfl, p', h1', -, -, -, h4'⟩
      cases h1.symm.trans h1'
      rw [firstPrints_det h4 h4']

/-- The same for example/option_groups.cpp. -/
theorem C114_groups (env : Env) (print : Int → Str) (texts : GroupTexts) (prog : Str) (args : List Str) (hlen : args.length < 2147483648) (code : Nat) (out : Str) :
    groups env print texts (prog :: args) = .exits code out ↔ ∃ p, ({ desc := general env ++ gui env ++ backend env } : Cmdline).parse args = .ok p ∧
      (∀ name ∈ [str% "help", str% "help-module", str% "version", str% "display", str% "num-threads"], AtMostOnce p.options name) ∧
      IsNumber env 0 p.options (str% "num-threads") ∧ GroupsPrints env print texts p.options code out := by
  have hall : ∀ os, (∀ q ∈ groupsTable, AtMostOnce os q.1 ∧ ∀ ty, q.2 = .one (.lex ty) → IsNumber env ty os q.1) ↔
      (∀ name ∈ [str% "help", str% "help-module", str% "version", str% "display", str% "num-threads"], AtMostOnce os name) ∧
        IsNumber env 0 os (str% "num-threads") := by
    intro os
    simp [groupsTable, and_assoc]
  obtain ⟨e1, e2⟩ := groups_error env print texts prog args
  have := (groups_table env).program hlen e1 e2 (Q := fun os => ∃ code out, groups env print texts (prog :: args) = .exits code out ∧ GroupsPrints env print texts os code out)
    fun p m h hm => groups_runs env print texts prog hlen h hm
  simp only [hall] at this
  rcases this with ⟨⟨f, h1⟩, h2⟩ | ⟨p, h1, h2, c', out', h3, h4⟩
  · rw [h1]
    refine ⟨nofun, ?_⟩
    rintro ⟨p, hp, a1, a2, -⟩
    exact absurd ⟨p, hp, a1, a2⟩ h2
  · rw [h3]
    constructor
    · intro h; cases h; exact ⟨p, h1, h2.1, h2.2, h4⟩
    · rintro ⟨p', h1', -, -, h4'⟩
      cases h1.symm.trans h1'
      obtain ⟨rfl, rfl⟩ := groupsPrints_det h4 h4'
      rfl

/-- example/real.cpp: it prints, or complains itself, exactly if the command line is accepted and has each option at most once; and the complaint is
about the first rule that is broken. -/
theorem C114_real (env : Env) (help : Str) (prog : Str) (args : List Str) (hlen : args.length < 2147483648) (e : Ending) (he : ∀ f, e ≠ .caught f) :
    real env help (prog :: args) = e ↔ ∃ p, ({ desc := realDesc env } : Cmdline).parse args = .ok p ∧
      (∀ name ∈ [str% "help", str% "output", str% "macrofile", str% "two", str% "body", str% "libmakfile", str% "mainpackage", str% "depends", str% "sources",
        str% "root"], AtMostOnce p.options name) ∧ RealPrints help p.options e := by
  have hall : ∀ os, (∀ q ∈ realTable, AtMostOnce os q.1 ∧ ∀ ty, q.2 = .one (.lex ty) → IsNumber env ty os q.1) ↔
      ∀ name ∈ [str% "help", str% "output", str% "macrofile", str% "two", str% "body", str% "libmakfile", str% "mainpackage", str% "depends", str% "sources",
        str% "root"], AtMostOnce os name := by
    intro os
    simp [realTable]
  obtain ⟨e1, e2⟩ := real_error env help prog args
  have := (real_table env).program hlen e1 e2 (Q := fun os => RealPrints help os (real env help (prog :: args)))
    fun p m h hm => real_runs env help prog hlen h hm
  simp only [hall] at this
  rcases this with ⟨⟨f, h1⟩, h2⟩ | ⟨p, h1, h2, h3⟩
  · rw [h1]
    refine ⟨fun h => absurd h.symm (he f), ?_⟩
    rintro ⟨p, hp, a1, -⟩
    exact absurd ⟨p, hp, a1⟩ h2
  · constructor
    · rintro rfl; exact ⟨p, h1, h2, h3⟩
    · rintro ⟨p', h1', -, h3'⟩
      cases h1.symm.trans h1'
      exact realPrints_det h3 h3'

/-- What is caught in these programs is an exception of the library. -/
theorem C114_otherwise (env : Env) (print : Int → Str) (help : Str) (texts : GroupTexts) (prog : Str) (args : List Str) (hlen : args.length < 2147483648) (f : Fail)
    (h : first env print help (prog :: args) = .caught f ∨ groups env print texts (prog :: args) = .caught f ∨ real env help (prog :: args) = .caught f) : LibraryException f := by
  rcases h with h | h | h
  · obtain ⟨e1, e2⟩ := first_error env print help prog args
    refine (first_table env).exception ?_ e1 e2 ?_ h
    · intro d hd
      rcases List.mem_cons.1 hd with rfl | hd
      · exact ⟨_, .untyped env true⟩
      · cases List.mem_singleton.1 hd
        exact ⟨_, .typed env _ ⟨nofun, nofun⟩ rfl⟩
    · rintro p m h1 h2 ⟨f, hf⟩
      obtain ⟨out, h3, -⟩ := first_runs env print help prog hlen h1 h2
      rw [h3] at hf
      cases hf
  · obtain ⟨e1, e2⟩ := groups_error env print texts prog args
    refine (groups_table env).exception ?_ e1 e2 ?_ h
    · intro d hd
      rcases List.mem_cons.1 hd with rfl | hd
      · exact ⟨_, .untyped env true⟩
      rcases List.mem_cons.1 hd with rfl | hd
      · exact ⟨_, .typed env _ ⟨nofun, nofun⟩ rfl⟩
      rcases List.mem_cons.1 hd with rfl | hd
      · exact ⟨_, .untyped env true⟩
      rcases List.mem_cons.1 hd with rfl | hd
      · exact ⟨_, .typed env _ ⟨nofun, nofun⟩ rfl⟩
      cases List.mem_singleton.1 hd
      exact ⟨_, .typed env _ ⟨nofun, nofun⟩ rfl⟩
    · rintro p m h1 h2 ⟨f, hf⟩
      obtain ⟨c, out, h3, -⟩ := groups_runs env print texts prog hlen h1 h2
      rw [h3] at hf
      cases hf
  · obtain ⟨e1, e2⟩ := real_error env help prog args
    refine (real_table env).exception ?_ e1 e2 ?_ h
    · intro d hd
      rcases List.mem_cons.1 hd with rfl | hd
      · exact ⟨_, .untyped env true⟩
      rcases List.mem_cons.1 hd with rfl | hd
      · exact ⟨_, .typed env _ ⟨nofun, nofun⟩ rfl⟩
      rcases List.mem_cons.1 hd with rfl | hd
      · exact ⟨_, .typed env _ ⟨nofun, nofun⟩ rfl⟩
      rcases List.mem_cons.1 hd with rfl | hd
      · exact ⟨_, .typed env _ ⟨by rintro q ⟨⟩; rfl, nofun⟩ rfl⟩
      rcases List.mem_cons.1 hd with rfl | hd
      · exact ⟨_, .typed env _ ⟨by rintro q ⟨⟩; rfl, nofun⟩ rfl⟩
      rcases List.mem_cons.1 hd with rfl | hd
      · exact ⟨_, .typed env _ ⟨nofun, nofun⟩ rfl⟩
      rcases List.mem_cons.1 hd with rfl | hd
      · exact ⟨_, .typed env _ ⟨nofun, nofun⟩ rfl⟩
      rcases List.mem_cons.1 hd with rfl | hd
      · exact ⟨_, .typed env _ ⟨nofun, nofun⟩ rfl⟩
      rcases List.mem_cons.1 hd with rfl | hd
      · exact ⟨_, .typed env _ ⟨nofun, nofun⟩ rfl⟩
      cases List.mem_singleton.1 hd
      exact ⟨_, .typed env _ ⟨nofun, nofun⟩ rfl⟩
    · rintro p m h1 h2 ⟨f, hf⟩
      have h3 := real_runs env help prog hlen h1 h2
      rw [hf] at h3
      cases h3

def Ex.firstDemo (args : List String) : Ending := Programs.first sourcesEnv sourcesPrint (Test.L "HELP") (Test.L "demo" :: args.map Test.L)
def Ex.groupsDemo (args : List String) : Ending := Programs.groups sourcesEnv sourcesPrint ⟨Test.L "ALL", Test.L "GUI", Test.L "BACKEND"⟩ (Test.L "demo" :: args.map Test.L)
def Ex.realDemo (args : List String) : Ending := Programs.real sourcesEnv (Test.L "HELP") (Test.L "demo" :: args.map Test.L)

example : Ex.firstDemo ["--compression", "3"] = .exits 0 (Test.L "Compression level was set to 3.\n") ∧
    Ex.firstDemo [] = .exits 0 (Test.L "Compression level was not set.\n") ∧ Ex.firstDemo ["--help", "--comp=5"] = .exits 0 (Test.L "HELP\n") ∧
    (∃ f, Ex.firstDemo ["--compression", "x"] = .caught f) ∧ ∃ f, Ex.firstDemo ["--help", "--help"] = .caught f :=
  ⟨by rfl, by rfl, by rfl, ⟨_, rfl⟩, ⟨_, rfl⟩⟩

example : Ex.groupsDemo ["--help-module", "backend"] = .exits 0 (Test.L "BACKEND") ∧ Ex.groupsDemo ["--help-module=x", "--num-threads=3"] =
      .exits 1 (Test.L "Unknown module 'x' in the --help-module option\n") ∧
    Ex.groupsDemo ["--num-threads", "5"] = .exits 0 (Test.L "The 'num-threads' options was set to 5\n") ∧ Ex.groupsDemo ["--version", "file"] = .exits 0 [] :=
  ⟨by rfl, by rfl, by rfl, by rfl⟩

example : Ex.realDemo ["-t"] = .exits 0 (Test.L "two = 1\n") ∧ Ex.realDemo ["-o", "x"] = .exits 0 (Test.L "two = 0\n") ∧
    Ex.realDemo ["-tox"] = .complains (Test.L "Conflicting options 'output' and 'two'.") ∧
    Ex.realDemo ["--depends=x", "--root", "y"] = .complains (Test.L "Option 'depends' requires option 'mainpackage'.") ∧
    Ex.realDemo ["-dx", "-py"] = .exits 0 (Test.L "two = 0\n") ∧ ∃ f, Ex.realDemo ["-t", "-t"] = .caught f :=
  ⟨by rfl, by rfl, by rfl, by rfl, by rfl, ⟨_, rfl⟩⟩

end PO
