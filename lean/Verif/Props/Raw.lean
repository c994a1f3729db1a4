import Verif.Lemmas.RawText
import Verif.Spec.Raw
import Verif.Props.Refusal
import Verif.Props.ConfigGrammar
import Verif.Lemmas.Order
/-
C91: which accesses are out of range.
-/
namespace PO
open Spec

/-! ### The command line -/

/-- What the checked functions return is out of range exactly if the other model says so. -/
theorem Raw.of_oob {α : Type} (r : Except Fail α) (k : Oob) :
    Raw.of r = .error (.oob k) ↔ ∃ u, r = .error (.ub u) ∧ Raw.access u = some k := by
  cases r with
  | ok x => simp [Raw.of]
  | error f => cases f <;> first | (simp [Raw.of]; done) | skip
               rename_i u
               cases u <;> simp [Raw.of, Raw.access]

theorem Raw.of_ok_iff {α : Type} (r : Except Fail α) (x : α) : Raw.of r = .ok x ↔ r = .ok x := by
  cases r with
  | ok y => simp [Raw.of]
  | error f => cases f <;> first | (simp [Raw.of]; done) | skip
               rename_i u
               cases u <;> simp [Raw.of, Raw.access]

/-- **C91, the command line.** With every index, position and difference checked, `run` returns the same options. -/
theorem C91_run (c : Cmdline) (hm : ∀ d ∈ c.desc, d.semantic.maxTokens ≤ 4294967295) (args : List Str) (os : List Opt) :
    Raw.run c args = .ok os ↔ c.run args = .ok os := by
  rw [Raw.run_eq c hm, Raw.of_ok_iff]

/-- **C91, matching a name.** With every index checked, the match is the same. -/
theorem C91_match (d : OptionDesc) (option : Str) (approx longIcase shortIcase : Bool) (k : Oob) :
    Raw.match d option approx longIcase shortIcase ≠ .error (.oob k) ∧
    ∀ r, Raw.match d option approx longIcase shortIcase = .ok r ↔ d.match option approx longIcase shortIcase = r := by
  rw [Raw.match_eq]
  exact ⟨nofun, fun r => ⟨fun h => by injection h, fun h => by rw [h]⟩⟩

example : Raw.match (Test.od "Level*" Test.unt) (Test.L "lEVEL.X") false true false = .ok .approximateMatch := by
  rw [(C91_match _ _ _ _ _ .index).2]; decide

/-- **C91, the command line, exactly.** An access is out of range iff the tokens can all be read and among the options read
the first one with an ambiguous name has no original tokens; and it is the index. -/
theorem C91_run_out_of_range (c : Cmdline) (hm : ∀ d ∈ c.desc, d.semantic.maxTokens ≤ 4294967295) (hs : c.styleParser = none)
    (hne : ∀ d ∈ c.desc, ∀ name, name ≠ [] → reportedKey d name ≠ []) (args : List Str) (hlen : args.length < 2147483648) (k : Oob) :
    Raw.run c args = .error (.oob k) ↔ k = .index ∧ ∃ os, Reads c args os ∧ Clashes c os (.ub .emptyOriginalTokens) := by
  rw [Raw.run_eq c hm, Raw.of_oob]
  constructor
  · rintro ⟨u, h, ha⟩
    obtain ⟨rfl, h⟩ := (C21_undefined_iff c hs hne args hlen u).1 h
    simp only [Raw.access, Option.some.injEq] at ha
    exact ⟨ha.symm, h⟩
  · rintro ⟨rfl, h⟩
    exact ⟨.emptyOriginalTokens, (C21_undefined_iff c hs hne args hlen _).2 ⟨rfl, h⟩, rfl⟩

/-- If the canonical names identify the options, no access is out of range. -/
theorem C91_run_in_range (c : Cmdline) (hm : ∀ d ∈ c.desc, d.semantic.maxTokens ≤ 4294967295) (hs : c.styleParser = none)
    (hne : ∀ d ∈ c.desc, ¬ CanonicalName d []) (hid : Identified c) (args : List Str) (k : Oob) :
    Raw.run c args ≠ .error (.oob k) := by
  rw [Raw.run_eq c hm]
  intro h
  obtain ⟨u, h, -⟩ := (Raw.of_oob _ _).1 h
  exact C21_identified_partial c hs hne hid args u h

example : Raw.run { desc := [Test.od "foo,f" Test.unt, Test.od "foo,g" Test.unt] } [Test.L "-fg"] = .error (.oob .index) := by
  rw [Raw.run_eq _ (by intro d hd; simp only [List.mem_cons, List.not_mem_nil, or_false] at hd; rcases hd with rfl | rfl <;> decide)]
  rfl

/-! ### Configuration files -/

/-- **C91, configuration files.** The checked reader returns the same options. -/
theorem C91_config (text : Str) (desc : List OptionDesc) (au : Bool) (os : List Opt) :
    Raw.parseConfigFile text desc au = .ok os ↔ ∃ p, parseConfigFile text desc au = .ok p ∧ p.options = os := by
  rw [Raw.parseConfigFile_eq, Raw.of_ok_iff]
  cases parseConfigFile text desc au with
  | error f => simp [Except.map]
  | ok p => simp [Except.map]

/-- **C91, configuration files, exactly.** An access is out of range iff after lines that are in order there is a line that says
`[]`; it is the last character of an empty text that is read. -/
theorem C91_config_out_of_range (text : Str) (desc : List OptionDesc) (au : Bool) (k : Oob) :
    Raw.parseConfigFile text desc au = .error (.oob k) ↔ k = .index ∧
      (∀ d ∈ desc, d.firstLong ≠ []) ∧ ¬ Overlap desc ∧ ∃ ls last, text = ls.flatMap (· ++ ['\n']) ++ last ∧
        (∀ l ∈ ls, '\n' ∉ l) ∧ '\n' ∉ last ∧ ∃ good l rest os, ls ++ [last] = good ++ l :: rest ∧ Says l ['[', ']'] ∧
          FileLines desc au [] good os := by
  have hmap : ∀ u, (parseConfigFile text desc au).map (·.options) = .error (.ub u) ↔ parseConfigFile text desc au = .error (.ub u) := by
    intro u
    cases parseConfigFile text desc au <;> simp [Except.map]
  rw [Raw.parseConfigFile_eq, Raw.of_oob]
  simp only [hmap]
  constructor
  · rintro ⟨u, h, ha⟩
    obtain ⟨rfl, h'⟩ := (C27_undefined_iff text desc au u).1 h
    simp only [Raw.access, Option.some.injEq] at ha
    exact ⟨ha.symm, h'⟩
  · rintro ⟨rfl, h⟩
    exact ⟨.emptySection, (C27_undefined_iff text desc au _).2 ⟨rfl, h⟩, rfl⟩

example : Raw.parseConfigFile (Test.L "a=1\n[]\n") [Test.od "a" (Test.sem Test.vstr)] false = .error (.oob .index) := by
  rw [Raw.parseConfigFile_eq]; rfl

/-! ### The environment -/

/-- **C91, the environment.** No access is out of range: an entry without `=` fails the assertion, any other is split at the
first one; and the prefix is cut off where the name starts with it. -/
theorem C91_environment (entry pre name : Str) :
    (Raw.splitEnv entry = match splitEnv entry with | .ok r => .ok r | .error f => .error (.fail f)) ∧
    (Raw.splitEnv entry = .error (.fail (.ub .envNoEquals)) ↔ '=' ∉ entry) ∧
    Raw.prefixMapper pre name = .ok (prefixMapper pre name) := by
  refine ⟨?_, ?_, Raw.prefixMapper_eq pre name⟩
  · rw [Raw.splitEnv_eq]
    unfold splitEnv
    cases findChar entry '=' <;> rfl
  · rw [Raw.splitEnv_eq]
    unfold splitEnv
    cases h : findChar entry '=' with
    | none => simpa [Raw.of, Raw.access] using findChar_eq_none.1 h
    | some n =>
      obtain ⟨u, v, rfl, -, -⟩ := findChar_eq_some.1 h
      simp [Raw.of]

/-! ### The names of an option -/

/-- **C91, the names of an option.** Without names the assertion fails; otherwise taking the names apart accesses nothing out of range,
nor does showing them afterwards. -/
theorem C91_names (d : OptionDesc) (names : Str) :
    (Raw.setNames d names = .error (.fail (.ub .noNames)) ↔ names = []) ∧
    (names ≠ [] → ∃ d' text, Raw.setNames d names = .ok d' ∧ d.setNames names = .ok d' ∧ Raw.formatName d' = .ok text ∧
      d'.formatName = .ok text ∧ ∀ style, Raw.canonicalDisplayName d' style = .ok (d'.canonicalDisplayName style)) := by
  have hs := Raw.setNames_eq d names
  have key : names ≠ [] → ∃ d', d.setNames names = .ok d' ∧ (d'.longNames = [] → d'.shortName ≠ []) := by
    intro h0
    have hg : getlines ',' names ≠ [] := by
      cases names with
      | nil => exact absurd rfl h0
      | cons x names =>
        have hc : ∀ (s cur : Str), cur ≠ [] → getlinesAux ',' s cur ≠ [] := by
          intro s
          induction s with
          | nil => intro cur hc; rw [getlinesAux, if_neg hc]; simp
          | cons y s ih => intro cur hc; rw [getlinesAux]; split <;> simp [ih]
        rw [getlines, getlinesAux]
        split
        · simp
        · exact hc _ _ (by simp)
    unfold OptionDesc.setNames
    dsimp only
    rw [if_neg hg]
    split
    · split
      · split
        · exact ⟨_, rfl, by simp⟩
        · exact ⟨_, rfl, by simp⟩
      · exact ⟨_, rfl, fun h => absurd h hg⟩
    · exact ⟨_, rfl, fun h => absurd h hg⟩
  constructor
  · constructor
    · intro h
      by_cases h0 : names = []
      · exact h0
      · obtain ⟨d', h1, -⟩ := key h0
        rw [hs, h1] at h
        cases h
    · rintro rfl
      rw [hs]; rfl
  · intro h0
    obtain ⟨d', h1, h2⟩ := key h0
    have hf : ∃ text, d'.formatName = .ok text := by
      obtain ⟨short, longs, _, _⟩ := d'
      unfold OptionDesc.formatName
      cases longs <;> cases short <;> simp_all
    obtain ⟨text, ht⟩ := hf
    exact ⟨d', text, by rw [hs, h1]; rfl, h1, by rw [Raw.formatName_eq, ht]; rfl, ht, fun style => Raw.canonicalDisplayName_eq d' style⟩

example : Raw.setNames (Test.od "x" Test.unt) (Test.L ",v") = .ok { Test.od "x" Test.unt with shortName := Test.L "-v", longNames := [] } := by rfl
example : Raw.formatName (Test.od "foo,v" Test.unt) = .ok (Test.L "-v [ --foo ]") := by rfl

/-! ### Splitting a command line -/

/-- **C91, `split_winmain`.** Stepping back from the end of the skipped spaces and every other step stays in the text. -/
theorem C91_winmain (input : Str) : Raw.splitWinmain input = .ok (splitWinmain input) := Raw.splitWinmain_eq input

example : Raw.splitWinmain (Test.L "  a \\\"b c\\") = .ok [Test.L "a", Test.L "\"b", Test.L "c\\"] := by
  rw [C91_winmain]; rfl

/-! ### Messages -/

theorem Spec.Thrown.keys {e : OptErr} (h : Thrown e) : Raw.HasKeys e := by
  have hset : ∀ (m : SMap Str) (k s v : Str), (SMap.get? m s).isSome → (SMap.get? (SMap.set m k v) s).isSome := by
    intro m k s v hm
    rw [SMap.get?_set]
    split
    · rfl
    · exact hm
  induction h with
  | make cls name tok style => exact ⟨rfl, rfl⟩
  | subst h k v ih => exact ⟨hset _ _ _ _ ih.1, hset _ _ _ _ ih.2⟩
  | context h name tok style ih =>
    unfold OptErr.addContext OptErr.setSubst Raw.HasKeys
    split
    · exact ⟨hset _ _ _ _ ih.1, hset _ _ _ _ ih.2⟩
    · exact ⟨hset _ _ _ _ (hset _ _ _ _ ih.1), hset _ _ _ _ (hset _ _ _ _ ih.2)⟩

/-- **C91, messages.** In an exception that was constructed and then given substitutions and context in any order, both entries
read by `get_canonical_option_name` are there, and the first character is read only of a token that has one; `replace_token`
replaces inside the text; the last alternative is read out of range iff there are no alternatives. -/
theorem C91_messages (e : OptErr) (h : Thrown e) (fuel : Nat) (msg src dst : Str) (alts : List Str) (k : Oob) :
    Raw.canonicalName e = .ok e.canonicalName ∧ Raw.replaceToken fuel msg src dst = .ok (replaceToken fuel msg src dst) ∧
    (Raw.ambiguousTemplate alts msg = .error (.oob k) ↔ k = .index ∧ alts = []) ∧
    (∀ t, Raw.ambiguousTemplate alts msg = .ok t ↔ ambiguousTemplate alts msg = some t) := by
  refine ⟨Raw.canonicalName_eq h.keys, Raw.replaceToken_eq .., ?_, ?_⟩
  · rw [Raw.ambiguousTemplate_eq]
    have hnil : ambiguousTemplate alts msg = none ↔ alts = [] := by
      unfold ambiguousTemplate
      dsimp only
      constructor
      · intro h
        cases alts with
        | nil => rfl
        | cons a as =>
          have : (SSet.insertAll [] (a :: as)).reverse ≠ [] := by
            intro h0
            have ha : a ∈ SSet.insertAll [] (a :: as) := (SSet.mem_insertAll _ _ _).2 (by simp)
            rw [List.reverse_eq_nil_iff] at h0
            rw [h0] at ha
            cases ha
          split at h
          · rename_i h0; exact absurd h0 this
          · cases h
      · rintro rfl; rfl
    rw [← hnil]
    cases ambiguousTemplate alts msg with
    | none => simp; exact eq_comm
    | some t => simp
  · intro t
    rw [Raw.ambiguousTemplate_eq]
    cases ambiguousTemplate alts msg <;> simp

/-- Of an exception built in any other way, an entry is read that is not there, exactly if one of the two is missing. -/
theorem C91_entries (e : OptErr) (k : Oob) :
    Raw.canonicalName e = .error (.oob k) ↔ k = .iter ∧ (SMap.get? e.subst (str% "option") = none ∨ SMap.get? e.subst (str% "original_token") = none) := by
  cases h1 : SMap.get? e.subst (str% "option") with
  | none =>
    have : Raw.canonicalName e = .error (.oob .iter) := by
      unfold Raw.canonicalName Raw.substOf
      rw [h1]
      rfl
    rw [this]
    simp [eq_comm]
  | some o =>
    cases h2 : SMap.get? e.subst (str% "original_token") with
    | none =>
      have : Raw.canonicalName e = .error (.oob .iter) := by
        unfold Raw.canonicalName Raw.substOf
        rw [h1, h2]
        rfl
      rw [this]
      simp [eq_comm]
    | some t =>
      rw [Raw.canonicalName_eq ⟨by rw [h1]; rfl, by rw [h2]; rfl⟩]
      simp

example : Raw.canonicalName (((OptErr.mk' (.cmdlineSyntax .missingParameter)).addContext (Test.L "out") (Test.L "-o") Style.allowDashForShort)) =
    .ok (some (Test.L "-o")) := rfl

/-! ### The help -/

theorem make_eq {caption : Str} {l m : Nat} {o : OptionsDesc} (h : OptionsDesc.make caption l m = .ok o) :
    o.caption = caption ∧ o.lineLength = l ∧ o.minDescLen = m ∧ o.belong = [] ∧ o.options = [] ∧ o.groups = [] := by
  unfold OptionsDesc.make at h
  by_cases hc : m < if l = 0 then uintMax else l - 1
  · rw [if_pos hc] at h; cases h; exact ⟨rfl, rfl, rfl, rfl, rfl, rfl⟩
  · rw [if_neg hc] at h; cases h

theorem Spec.Assembled.paired {o : OptionsDesc} (h : Assembled o) : Raw.Paired o := by
  induction h with
  | make h =>
    rename_i o
    obtain ⟨-, -, -, hb, ho, hg⟩ := make_eq h
    exact .mk (by rw [hb, ho]; rfl) (fun g hm => by rw [hg] at hm; cases hm)
  | option h d ih =>
    cases ih with
    | mk hb hg => exact .mk (by simp [OptionsDesc.addOption, hb]) hg
  | group ho hg iho ihg =>
    cases iho with
    | mk hb hg' =>
      refine .mk (by simp [OptionsDesc.addGroup, hb]) ?_
      intro g' hg''
      simp only [OptionsDesc.addGroup, List.mem_append, List.mem_singleton] at hg''
      rcases hg'' with h | rfl
      · exact hg' g' h
      · exact ihg

/-- How printing can fail if all options have names. -/
def HelpFail (f : Fail) : Prop := f = .ub .formatAssert ∨ f = .ub .formatRange ∨ f = .fuel ∨ ∃ m, f = .error m

theorem wrapRest_fail {fuel : Nat} {s : Str} {len : Nat} {f : Fail} (h : wrapRest fuel s len = .error f) : HelpFail f := by
  induction fuel generalizing s with
  | zero =>
    cases s with
    | nil => cases h
    | cons x xs => rw [wrapRest] at h; cases h; exact .inr (.inr (.inl rfl))
  | succ fuel ih =>
    cases s with
    | nil => cases h
    | cons x xs =>
      rw [wrapRest] at h
      · split at h
        · cases h; exact .inr (.inl rfl)
        · dsimp only at h
          split at h
          · rename_i h2; cases h; exact ih h2
          · cases h
      · simp

theorem formatParagraph_fail {par : Str} {i n : Nat} {f : Fail} (h : formatParagraph par i n = .error f) : HelpFail f := by
  unfold formatParagraph at h
  split at h
  · rename_i f' h2
    cases h
    unfold paragraphLines at h2
    split at h2
    · dsimp only at h2
      split at h2
      · rename_i h3
        cases h2
        unfold parIndent at h3
        split at h3
        · cases h3
        · split at h3
          · cases h3; exact .inr (.inr (.inr ⟨_, rfl⟩))
          · split at h3
            · cases h3
            · cases h3; exact .inl rfl
      · split at h2
        · cases h2
        · split at h2
          · rename_i h3; cases h2; exact wrapRest_fail h3
          · cases h2
    · cases h2; exact .inl rfl
  · cases h

theorem formatPars_fail {i n : Nat} {ps : List Str} {f : Fail} (h : formatPars i n ps = .error f) : HelpFail f := by
  induction ps with
  | nil => cases h
  | cons p ps ih =>
    rw [formatPars] at h
    split at h
    · rename_i h2; cases h; exact formatParagraph_fail h2
    · split at h
      · rename_i h2; cases h; exact ih h2
      · cases h

theorem formatDescription_fail {s : Str} {i n : Nat} {f : Fail} (h : formatDescription s i n = .error f) : HelpFail f := by
  unfold formatDescription at h
  split at h
  · split at h
    · split at h
      · rename_i h2; cases h; exact formatPars_fail h2
      · cases h
    · cases h; exact .inl rfl
  · cases h; exact .inl rfl

theorem leftColumn_named (d : OptionDesc) (h : d.shortName ≠ [] ∨ d.longNames ≠ []) (f : Fail) : d.leftColumn ≠ .error f := by
  unfold OptionDesc.leftColumn OptionDesc.formatName
  by_cases hs : d.shortName ≠ []
  · rw [if_pos hs]; cases d.longNames <;> simp
  · rw [if_neg hs]
    have := h.resolve_left hs
    cases hl : d.longNames with
    | nil => exact absurd hl this
    | cons => simp

theorem formatOne_fail {d : OptionDesc} (hd : d.shortName ≠ [] ∨ d.longNames ≠ []) {i n : Nat} {f : Fail}
    (h : formatOne d i n = .error f) : HelpFail f := by
  unfold formatOne at h
  split at h
  · rename_i h2; exact absurd h2 (leftColumn_named d hd _)
  · split at h
    · cases h
    · dsimp only at h
      split at h
      · rename_i h2; cases h; exact formatDescription_fail h2
      · cases h

theorem maxLeft_named {ds : List OptionDesc} (hd : ∀ d ∈ ds, d.shortName ≠ [] ∨ d.longNames ≠ []) {w : Nat} {f : Fail} :
    maxLeft ds w ≠ .error f := by
  induction ds generalizing w with
  | nil => simp [maxLeft]
  | cons d ds ih =>
    rw [maxLeft]
    split
    · rename_i h; exact absurd h (leftColumn_named d (hd d (List.mem_cons_self ..)) _)
    · exact ih (fun d h => hd d (List.mem_cons_of_mem _ h))

theorem formatOptions_fail {ds : List OptionDesc} (hd : ∀ d ∈ ds, d.shortName ≠ [] ∨ d.longNames ≠ []) {i n : Nat} {f : Fail}
    (h : formatOptions i n ds = .error f) : HelpFail f := by
  induction ds with
  | nil => cases h
  | cons d ds ih =>
    rw [formatOptions] at h
    split at h
    · rename_i h2; cases h; exact formatOne_fail (hd d (List.mem_cons_self ..)) h2
    · split at h
      · rename_i h2; cases h; exact ih (fun d h => hd d (List.mem_cons_of_mem _ h)) h2
      · cases h

theorem ownOptions_mem {ds : List OptionDesc} {bs : List Bool} {d : OptionDesc} (h : d ∈ ownOptions ds bs) : d ∈ ds := by
  induction ds generalizing bs with
  | nil => cases bs <;> cases h
  | cons e ds ih =>
    cases bs with
    | nil => cases h
    | cons b bs =>
      rw [ownOptions] at h
      split at h
      · exact List.mem_cons_of_mem _ (ih h)
      · rcases List.mem_cons.1 h with rfl | h
        · exact List.mem_cons_self ..
        · exact List.mem_cons_of_mem _ (ih h)

/-- All options of the object and of its groups have names. -/
inductive AllNamed : OptionsDesc → Prop
  | mk {o : OptionsDesc} (h : ∀ d ∈ o.options, d.shortName ≠ [] ∨ d.longNames ≠ []) (hg : ∀ g ∈ o.groups, AllNamed g) : AllNamed o

mutual
theorem columnWidth_fail (o : OptionsDesc) (ho : AllNamed o) (f : Fail) (h : columnWidth o = .error f) : HelpFail f := by
  obtain ⟨caption, ll, md, options, belong, groups⟩ := o
  cases ho with
  | mk hn hg =>
    rw [columnWidth] at h
    split at h
    · rename_i h2; exact absurd h2 (maxLeft_named hn)
    · split at h
      · rename_i h2; cases h; exact groupsWidth_fail groups hg _ _ h2
      · split at h
        · cases h
        · split at h
          · cases h
          · cases h; exact .inr (.inl rfl)
theorem groupsWidth_fail (gs : List OptionsDesc) (hg : ∀ g ∈ gs, AllNamed g) (w : Nat) (f : Fail) (h : groupsWidth gs w = .error f) :
    HelpFail f := by
  cases gs with
  | nil => rw [groupsWidth] at h; cases h
  | cons g gs =>
    rw [groupsWidth] at h
    split at h
    · rename_i h2; cases h; exact columnWidth_fail g (hg g (List.mem_cons_self ..)) _ h2
    · exact groupsWidth_fail gs (fun g h => hg g (List.mem_cons_of_mem _ h)) _ _ h
end

mutual
theorem printWidth_fail (w : Nat) (o : OptionsDesc) (ho : AllNamed o) (f : Fail) (h : printWidth w o = .error f) : HelpFail f := by
  obtain ⟨caption, ll, md, options, belong, groups⟩ := o
  cases ho with
  | mk hn hg =>
    rw [printWidth] at h
    split at h
    · rename_i h2; cases h; exact formatOptions_fail (fun d hd => hn d (ownOptions_mem hd)) h2
    · split at h
      · rename_i h2; cases h; exact printGroups_fail w groups hg _ h2
      · cases h
theorem printGroups_fail (w : Nat) (gs : List OptionsDesc) (hg : ∀ g ∈ gs, AllNamed g) (f : Fail) (h : printGroups w gs = .error f) :
    HelpFail f := by
  cases gs with
  | nil => rw [printGroups] at h; cases h
  | cons g gs =>
    rw [printGroups] at h
    split at h
    · rename_i h2; cases h; exact printWidth_fail w g (hg g (List.mem_cons_self ..)) _ h2
    · split at h
      · rename_i h2; cases h; exact printGroups_fail w gs (fun g h => hg g (List.mem_cons_of_mem _ h)) _ h2
      · cases h
end

theorem Spec.Assembled.named {o : OptionsDesc} (h : Assembled o) (hn : ∀ d ∈ o.options, d.shortName ≠ [] ∨ d.longNames ≠ []) : AllNamed o := by
  induction h with
  | make h =>
    obtain ⟨-, -, -, -, -, hg⟩ := make_eq h
    exact .mk hn (fun g hm => by rw [hg] at hm; cases hm)
  | option h d ih =>
    cases ih (fun d hd => hn d (by simp [OptionsDesc.addOption, hd])) with
    | mk hb hg => exact .mk hn hg
  | group ho hg iho ihg =>
    cases iho (fun d hd => hn d (by simp [OptionsDesc.addGroup, hd])) with
    | mk hb hg' =>
      refine .mk hn ?_
      intro g' hg''
      simp only [OptionsDesc.addGroup, List.mem_append, List.mem_singleton] at hg''
      rcases hg'' with h | rfl
      · exact hg' g' h
      · exact ihg (fun d hd => hn d (by simp [OptionsDesc.addGroup, hd]))

/-- **C91, the help.** For an object built with the constructor and `add`, printing with every index, iterator and difference
checked writes the same text. -/
theorem C91_print (o : OptionsDesc) (h : Assembled o) (width : Nat) (text : Str) :
    Raw.print o width = .ok text ↔ o.print width = .ok text := by
  rw [Raw.print_eq o h.paired, Raw.of_ok_iff]

/-- No access is out of range while printing if every option has a name, even where an assertion of `format_paragraph` fails. -/
theorem C91_print_in_range (o : OptionsDesc) (h : Assembled o) (hn : ∀ d ∈ o.options, d.shortName ≠ [] ∨ d.longNames ≠ []) (width : Nat)
    (k : Oob) : Raw.print o width ≠ .error (.oob k) := by
  rw [Raw.print_eq o h.paired]
  intro hk
  obtain ⟨u, hu, ha⟩ := (Raw.of_oob _ _).1 hk
  have : HelpFail (.ub u) := by
    unfold OptionsDesc.print at hu
    split at hu
    · split at hu
      · rename_i h2; cases hu; exact columnWidth_fail o (h.named hn) _ h2
      · exact printWidth_fail _ o (h.named hn) _ hu
    · exact printWidth_fail _ o (h.named hn) _ hu
  rcases this with h | h | h | ⟨m, h⟩ <;> cases h <;> cases ha

/-- With an option without a name (the default constructor of `option_description` gives none) the first long name of none is read. -/
example : ∃ o, Assembled o ∧ Raw.print o 20 = .error (.oob .index) := by
  obtain ⟨o, h⟩ : ∃ o, OptionsDesc.make [] 80 40 = .ok o := ⟨_, rfl⟩
  have ha : Assembled (o.addOption ⟨[], [], [], Test.unt⟩) := .option (.make h) _
  refine ⟨_, ha, ?_⟩
  rw [Raw.print_eq _ ha.paired]
  cases h; rfl

example : ∃ o, Assembled o ∧ Raw.print o 10 = .ok (Test.L "T:\n  --a arg say it\n") := by
  obtain ⟨o, h⟩ : ∃ o, OptionsDesc.make (Test.L "T") 80 40 = .ok o := ⟨_, rfl⟩
  have ha : Assembled (o.addOption (Test.od "a" (Test.sem Test.vstr) "say it")) := .option (.make h) _
  refine ⟨_, ha, ?_⟩
  rw [C91_print _ ha]
  cases h; rfl

end PO
