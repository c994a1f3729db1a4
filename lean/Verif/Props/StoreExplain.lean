import Verif.Spec.StoreExplain
import Verif.Props.Values
import Verif.Props.Explain
import Verif.Props.StoreGrammar
/-
C83: what the exceptions of `store` say.
-/
namespace PO
open Spec

/-- What an objection becomes when `store` adds name and token. -/
theorem objection_context (cls : ErrClass) (value : Option Str) (n t : Str) (pre : Nat) :
    (objection cls value).addContext n t pre = .opt
      { cls, style := pre, subst := shape none (if cls.noOptionName = true then [] else n) t value } := by
  cases value <;> cases cls <;> rfl

theorem canonical_displayedBy (cls : ErrClass) (value : Option Str) (n t : Str) (pre : Nat) (hk : KnownStyle pre) (hn : n ≠ []) :
    OptErr.canonicalName { cls, style := pre, subst := shape none (if cls.noOptionName = true then [] else n) t value } =
      some (displayedBy pre cls n t) := by
  have general : OptErr.canonicalName { cls, style := pre, subst := shape none n t value } =
      some (if pre = Style.allowLong then '-' :: '-' :: undashed n
        else if pre = Style.allowLongDisguise then '-' :: undashed n
        else if t = [] then undashed n
        else if pre = Style.allowDashForShort then '-' :: (undashed t).take 1
        else if pre = Style.allowSlashForShort then '/' :: (undashed t).take 1
        else undashed n) := by
    obtain ⟨s1, s2, -⟩ := substD_shape { cls, style := pre, subst := shape none n t value } none n t value rfl
    unfold OptErr.canonicalName
    rw [s1, s2, if_neg hn]
    dsimp only
    rw [stripPrefixes_eq, stripPrefixes_eq]
    unfold OptErr.canonicalPrefix
    dsimp only
    cases t with
    | nil =>
      have : undashed [] = [] := rfl
      rw [this]
      rcases hk with h | h | h | h | h <;> subst h <;> rfl
    | cons x t =>
      obtain ⟨y, r, hy⟩ := List.exists_cons_of_ne_nil (undashed_ne (List.cons_ne_nil x t))
      rw [hy]
      rcases hk with h | h | h | h | h <;> subst h <;> rfl
  cases cls with
  | unknownOption => cases value <;> rfl
  | ambiguousOption alts => cases value <;> rfl
  | multipleValues | multipleOccurrences | requiredOption | cmdlineSyntax | configSyntax | validation => exact general

theorem built_objection (cls : ErrClass) (value : Option Str) (n t : Str) (pre : Nat) (e : OptErr)
    (he : Fail.opt e = (objection cls value).addContext n t pre) : Built e := by
  have : ∃ e0, Built e0 ∧ objection cls value = .opt e0 := by
    cases value with
    | none => exact ⟨_, .mk cls [] [] 0, rfl⟩
    | some v => exact ⟨_, .value _ v (.mk cls [] [] 0), rfl⟩
  obtain ⟨e0, h0, e1⟩ := this
  rw [e1] at he
  injection he with he
  rw [he]
  exact .context _ _ _ _ h0

/-- The classes of exceptions `store` throws, with what is needed for the message. -/
structure StoreSayable (cls : ErrClass) (value : Option Str) (n t : Str) : Prop where
  name : n ≠ [] ∧ NP n
  token : NP t
  alts : ∀ alts, cls = .ambiguousOption alts → value = none ∧ t ≠ [] ∧ alts ≠ [] ∧ ∀ a ∈ alts, NP a
  plain : (∀ l, cls ≠ .configSyntax l) ∧ ∀ l, cls ≠ .cmdlineSyntax l
  value : ∀ v, value = some v → ¬ str% "%value%" <:+: v

theorem objection_says (cls : ErrClass) (value : Option Str) (n t : Str) (pre : Nat) (hk : KnownStyle pre) (hs : StoreSayable cls value n t)
    (e : OptErr) (he : Fail.opt e = (objection cls value).addContext n t pre) :
    ∃ text, StoreTells pre cls value n t text ∧ ∃ f0, ∀ f, f0 ≤ f → e.what f = some text := by
  have hb := built_objection cls value n t pre e he
  rw [objection_context] at he
  injection he with he
  have hsh : e.subst = shape none (if cls.noOptionName = true then [] else n) t value := by rw [he]
  have hn : e.canonicalName = some (displayedBy pre cls n t) := by rw [he]; exact canonical_displayedBy cls value n t pre hk hs.name.1
  have hcls : e.cls = cls := by rw [he]
  have hstyle : e.style = pre := by rw [he]
  have hke : KnownStyle e.style := by rw [hstyle]; exact hk
  obtain ⟨s1, s2, s3, s4⟩ := substD_shape e none _ t value hsh
  have h1 : Clean (e.substD (str% "option")) := by
    rw [s1]
    split
    · exact np_clean (by simp [NP])
    · exact np_clean hs.name.2
  have h2 : Clean (e.substD (str% "original_token")) := by rw [s2]; exact np_clean hs.token
  by_cases ha : ∃ alts, cls = .ambiguousOption alts
  · obtain ⟨alts, ha⟩ := ha
    obtain ⟨hval, htok, hne, hal⟩ := hs.alts alts ha
    subst ha hval
    have hhas : SMap.has e.subst (str% "value") = false ∧ SMap.has e.subst (str% "invalid_line") = false := by
      rw [hsh]; exact ⟨rfl, rfl⟩
    by_cases hst : pre = Style.allowDashForShort ∨ pre = Style.allowSlashForShort
    · refine ⟨_, .short hst, 5, fun f hf => ?_⟩
      obtain ⟨pr, hp, _⟩ := prefix_of_known hke
      unfold OptErr.what
      rw [hcls]
      dsimp only
      rw [if_pos (by rw [hstyle]; exact hst), substitute_template e (.ambiguousOption alts) none _ t none _ pr hsh hn hp (fun h => Form.noConfusion h)
        (name_clean hp hn h1 h2) (by simp) (by simp) f hf]
      show some (message t [] [] _) = _
      unfold message optionText
      rw [if_neg htok]
      simp
    · have hst : pre ≠ Style.allowDashForShort ∧ pre ≠ Style.allowSlashForShort := by simpa [not_or] using hst
      obtain ⟨name, pr, sorted, f0, e1, e2, e3, e4, e5⟩ := C49_alternatives e hb hke alts hcls (by rw [hstyle]; exact hst) hne hal h1 h2 hhas (by
        rw [hn]; intro h; injection h with h; exact htok h)
      rw [hn] at e1; cases e1
      have : pr = dashesOf pre := by
        unfold OptErr.canonicalPrefix at e2
        rw [hstyle] at e2
        rcases hk with h | h | h | h | h
        · subst h; exact (Option.some.inj e2).symm
        · subst h; exact (Option.some.inj e2).symm
        · exact absurd h hst.1
        · exact absurd h hst.2
        · subst h; exact (Option.some.inj e2).symm
      subst this
      exact ⟨_, .ambiguous sorted e3 e4 hst, f0, e5⟩
  · have ha : ∀ alts, cls ≠ .ambiguousOption alts := fun alts h => ha ⟨alts, h⟩
    obtain ⟨name, e1, e2⟩ := C48_verbatim_partial e hb hke (by rw [hcls]; exact ha)
      (by rw [hcls]; rintro (h | h) <;> [exact absurd h (hs.plain.2 _); exact absurd h (hs.plain.1 _)]) h1 h2
      (by
        rw [s3]
        cases hv : value with
        | none => decide
        | some v => exact hs.value v hv) (by rw [s4]; exact np_clean (by simp [NP]))
    rw [hn] at e1; cases e1
    exact ⟨_, .other ha, 5, fun f hf => by rw [e2 f hf, s3, s4, hcls]; rfl⟩

/-- Which objections a value semantic has. -/
theorem declared_objects {s : ValueSemantic} {T : VType} (hd : Declared s T) {a : Any} {toks : List Str} {utf8 : Bool} {e : OptErr}
    (h : (s.parse a toks utf8).2 = some (.opt e)) :
    ∃ cls value, Fail.opt e = objection cls value ∧ (∀ alts, cls ≠ .ambiguousOption alts) ∧ (∀ l, cls ≠ .configSyntax l) ∧ ∀ l, cls ≠ .cmdlineSyntax l := by
  have e1 : s.parse a toks utf8 = ((s.parse a toks utf8).1, some (.opt e)) := Prod.ext rfl h
  cases hd with
  | typed env t ht =>
    rcases (C82_refused env t a toks utf8 _ _).1 e1 with ⟨-, -, h⟩ | ⟨xs, -, h⟩
    · cases h
    · generalize hl : ((t.toSemantic env).parse a toks utf8).1 = left at h
      generalize hf : Fail.opt e = f at h
      cases h with
      | again => exact ⟨_, _, rfl, nofun, nofun, nofun⟩
      | several => exact ⟨_, _, rfl, nofun, nofun, nofun⟩
      | missing => exact ⟨_, _, rfl, nofun, nofun, nofun⟩
      | wrong => exact ⟨_, _, rfl, nofun, nofun, nofun⟩
      | wrongElement => exact ⟨_, _, rfl, nofun, nofun, nofun⟩
      | otherType => cases hf
      | otherElement => cases hf
      | notVector => cases hf
  | untyped env zero =>
    rcases (C82_untyped env zero a toks utf8 _ _).1 e1 with ⟨-, -, h⟩ | ⟨xs, -, ⟨-, -, h⟩ | ⟨-, -, -, h⟩ | ⟨_, -, -, -, h⟩ | ⟨-, -, -, h⟩⟩
    · cases h
    · exact ⟨.multipleOccurrences, none, Option.some.inj h, nofun, nofun, nofun⟩
    · cases h
    · cases h
    · exact ⟨.multipleValues, none, Option.some.inj h, nofun, nofun, nofun⟩

theorem store_objects {desc : List OptionDesc} (hd : ∀ d ∈ desc, ∃ T, Declared d.semantic T) (hn : ∀ d ∈ desc, '%' ∉ d.shortName ∧ ∀ n ∈ d.longNames, '%' ∉ n)
    {xm : VarMap} {utf8 : Bool} {before : List Opt} {o : Opt} (ho : '%' ∉ o.stringKey) {e : OptErr} (h : Objects desc xm utf8 before o (.opt e)) :
    ∃ cls value, Fail.opt e = objection cls value ∧ (∀ alts, cls = .ambiguousOption alts → value = none ∧ alts ≠ [] ∧ ∀ a ∈ alts, NP a) ∧
      (∀ l, cls ≠ .configSyntax l) ∧ ∀ l, cls ≠ .cmdlineSyntax l := by
  have hsub : ∀ d ∈ candidates desc o.stringKey, d ∈ desc := by
    intro d h
    unfold candidates at h
    split at h <;> exact (List.mem_filter.1 h).1
  generalize hf : Fail.opt e = f at h
  cases h with
  | unknown h => exact ⟨.unknownOption, none, rfl, nofun, nofun, nofun⟩
  | ambiguous h =>
    refine ⟨.ambiguousOption _, none, rfl, ?_, nofun, nofun⟩
    rintro alts ⟨rfl⟩
    refine ⟨rfl, ?_, ?_⟩
    · intro h'; rw [List.map_eq_nil_iff] at h'; rw [h'] at h; simp at h
    · intro a ha
      obtain ⟨d, hd', rfl⟩ := List.mem_map.1 ha
      exact Cmdline.key_np (c := { desc := desc }) hn (hsub d hd') ho
  | value d a hy he =>
    have hm : d ∈ desc := hsub d (by rw [hy.1]; simp)
    obtain ⟨T, hT⟩ := hd d hm
    subst hf
    obtain ⟨cls, value, h1, h2, h3, h4⟩ := declared_objects hT he
    exact ⟨cls, value, h1, fun alts h => absurd h (h2 alts), h3, h4⟩

/-- **C83.** If `store` throws an exception about an option, it is about the first option that cannot be stored (C65), and its message is the
text that `StoreTells` gives for the objection to this option. No percent sign is in names and tokens; the quoted value does not contain
`%value%`; an ambiguous name has a token. -/
theorem C83_explained (p : Parsed) (hk : KnownStyle p.pre) (hd : ∀ d ∈ p.desc, ∃ T, Declared d.semantic T)
    (hn : ∀ d ∈ p.desc, '%' ∉ d.shortName ∧ ∀ n ∈ d.longNames, '%' ∉ n)
    (ho : ∀ o ∈ p.options, '%' ∉ o.stringKey ∧ ∀ t ∈ o.originalTokens, '%' ∉ t)
    (xm : VarMap) (utf8 : Bool) (e : OptErr) (h : (store p xm utf8).2 = some (.opt e)) :
    ∃ before o after cls value, FirstFault p xm utf8 before o after (objection cls value) ∧
      Fail.opt e = (objection cls value).addContext o.stringKey (o.originalTokens.headD []) p.pre ∧
      ((∀ alts, cls = .ambiguousOption alts → o.originalTokens.headD [] ≠ []) → (∀ v, value = some v → ¬ str% "%value%" <:+: v) →
        ∃ text, StoreTells p.pre cls value o.stringKey (o.originalTokens.headD []) text ∧ ∃ f0, ∀ f, f0 ≤ f → e.what f = some text) := by
  obtain ⟨before, o, after, e0, hff, he⟩ := (C65_fails p xm utf8 _).1 h
  have hom : o ∈ p.options := by rw [hff.split]; simp
  have ht : '%' ∉ o.originalTokens.headD [] := by
    cases hot : o.originalTokens with
    | nil => simp
    | cons t ts => exact (ho o hom).2 t (by simp [hot])
  obtain ⟨e1, rfl⟩ : ∃ e1, e0 = .opt e1 := by
    cases e0 <;> first | exact ⟨_, rfl⟩ | cases he
  obtain ⟨cls, value, h1, h2, h3, h4⟩ := store_objects hd hn (ho o hom).1 hff.fault
  rw [h1] at hff he
  refine ⟨before, o, after, cls, value, hff, he, fun ha hv => ?_⟩
  exact objection_says cls value _ _ p.pre hk ⟨⟨hff.named, (ho o hom).1⟩, ht, fun alts h => ⟨(h2 alts h).1, ha alts h, (h2 alts h).2⟩, ⟨h3, h4⟩, hv⟩ e he

/-- In particular: the first bad value. It is quoted as it arrived (booleans: in lower case), and the option is displayed with the dashes of the
command line. -/
theorem C83_bad_value (p : Parsed) (hk : KnownStyle p.pre) (xm : VarMap) (utf8 : Bool) (before after : List Opt) (o : Opt)
    (hsplit : p.options = before ++ o :: after) (hnamed : o.stringKey ≠ []) (hreg : o.unregistered = false) (hopen : o.stringKey ∉ xm.final)
    (hb : AllYield p.desc xm utf8 before) (d : OptionDesc) (hy : Yields p.desc xm utf8 before o.stringKey d none)
    (env : Env) (t : TypedValue) (hd : d.semantic = t.toSemantic env) (st : SType) (ht : t.type = .scalar st)
    (tok : Str) (hv : o.value = [tok]) (x : Word) (hx : Arrives env t.wide utf8 tok x) (k : ValidKind) (s : Str) (hr : Rejects env st x k s)
    (hs0 : s ≠ []) (hs : ¬ str% "%value%" <:+: s) (hname : '%' ∉ o.stringKey) (htok : ∀ t ∈ o.originalTokens, '%' ∉ t) :
    ∃ e, (store p xm utf8).2 = some (.opt e) ∧ ∃ f0, ∀ f, f0 ≤ f → e.what f = some (
      str% "the argument ('" ++ s ++ str% "') for " ++
        optionText (displayedBy p.pre (.validation k) o.stringKey (o.originalTokens.headD [])) ++
        (if st = .bool then str% " is invalid. Valid choices are 'on|off', 'yes|no', '1|0' and 'true|false'" else str% " is invalid")) := by
  have hpar : (d.semantic.parse none o.value utf8).2 = some (objection (.validation k) (some s)) := by
    rw [hd, hv]
    have := (C82_refused env t none [tok] utf8 none _).2 (.inr ⟨[x], .cons hx .nil, .wrong st x k s (by rw [ht]; exact .scalar st) rfl hr⟩)
    rw [this]
  have hst : (store p xm utf8).2 = some ((objection (.validation k) (some s)).addContext o.stringKey (o.originalTokens.headD []) p.pre) :=
    (C65_fails p xm utf8 _).2 ⟨before, o, after, _, ⟨hsplit, hnamed, hreg, hopen, hb, .value d none hy hpar⟩, rfl⟩
  have ht' : '%' ∉ o.originalTokens.headD [] := by
    cases hot : o.originalTokens with
    | nil => simp
    | cons t ts => exact htok t (by simp [hot])
  obtain ⟨e, he⟩ : ∃ e, Fail.opt e = (objection (.validation k) (some s)).addContext o.stringKey (o.originalTokens.headD []) p.pre := ⟨_, rfl⟩
  obtain ⟨text, h1, f0, h2⟩ := objection_says (.validation k) (some s) o.stringKey _ p.pre hk ⟨⟨hnamed, hname⟩, ht', nofun, ⟨nofun, nofun⟩, by rintro v ⟨rfl⟩; exact hs⟩ e he
  refine ⟨e, by rw [hst, he], f0, fun f hf => ?_⟩
  rw [h2 f hf]
  cases h1 with
  | other =>
    have harg : argumentText s = str% "argument ('" ++ s ++ str% "')" := by unfold argumentText; rw [if_neg hs0]
    have hsb : k = .invalidBoolValue ∧ st = .bool ∨ k = .invalidOptionValue ∧ st ≠ .bool := by
      cases hr <;> simp
    rcases hsb with ⟨rfl, rfl⟩ | ⟨rfl, hb⟩
    · rw [if_pos rfl]
      simp [message, validMessage, harg]
    · rw [if_neg hb]
      simp [message, validMessage, harg]

/-- An option that is not declared: the message shows the token, not the name; where there are no tokens, as with the environment, it does not say
which option it is about. -/
theorem C83_unknown (p : Parsed) (hk : KnownStyle p.pre) (xm : VarMap) (utf8 : Bool) (before after : List Opt) (o : Opt)
    (hsplit : p.options = before ++ o :: after) (hnamed : o.stringKey ≠ []) (hreg : o.unregistered = false) (hopen : o.stringKey ∉ xm.final)
    (hb : AllYield p.desc xm utf8 before) (hu : candidates p.desc o.stringKey = []) (hname : '%' ∉ o.stringKey) (htok : ∀ t ∈ o.originalTokens, '%' ∉ t) :
    ∃ e, (store p xm utf8).2 = some (.opt e) ∧ ∃ f0, ∀ f, f0 ≤ f → e.what f = some (
      match o.originalTokens.headD [] with
      | [] => str% "unrecognised option"
      | tok => str% "unrecognised option '" ++ tok ++ str% "'") := by
  have hst : (store p xm utf8).2 = some ((objection .unknownOption none).addContext o.stringKey (o.originalTokens.headD []) p.pre) :=
    (C65_fails p xm utf8 _).2 ⟨before, o, after, _, ⟨hsplit, hnamed, hreg, hopen, hb, .unknown hu⟩, rfl⟩
  have ht' : '%' ∉ o.originalTokens.headD [] := by
    cases hot : o.originalTokens with
    | nil => simp
    | cons t ts => exact htok t (by simp [hot])
  obtain ⟨e, he⟩ : ∃ e, Fail.opt e = (objection .unknownOption none).addContext o.stringKey (o.originalTokens.headD []) p.pre := ⟨_, rfl⟩
  obtain ⟨text, h1, f0, h2⟩ := objection_says .unknownOption none o.stringKey _ p.pre hk ⟨⟨hnamed, hname⟩, ht', nofun, ⟨nofun, nofun⟩, nofun⟩ e he
  refine ⟨e, by rw [hst, he], f0, fun f hf => ?_⟩
  rw [h2 f hf]
  cases h1 with
  | other =>
    cases hc : o.originalTokens.headD [] with
    | nil => rfl
    | cons a as => simp [message, displayedBy, optionText]

/-- For a result of a command line these are the dashes, or the letter, that the parser itself would show (C80); -/
theorem C83_command_line (c : Cmdline) (args : List Str) (p : Parsed) (h : c.parse args = .ok p) (cls : ErrClass) (name tok : Str) (hn : name ≠ []) :
    KnownStyle p.pre ∧ displayedBy p.pre cls name tok = displayed c cls name tok ∧ dashesOf p.pre = dashes c := by
  have hp : p.pre = c.canonicalPrefix := by
    unfold Cmdline.parse at h
    split at h
    · cases h
    · cases h; rfl
  rw [hp]
  refine ⟨canonicalPrefix_known c, ?_, ?_⟩
  · have general : (if c.canonicalPrefix = Style.allowLong then '-' :: '-' :: undashed name
        else if c.canonicalPrefix = Style.allowLongDisguise then '-' :: undashed name
        else if tok = [] then undashed name
        else if c.canonicalPrefix = Style.allowDashForShort then '-' :: (undashed tok).take 1
        else if c.canonicalPrefix = Style.allowSlashForShort then '/' :: (undashed tok).take 1
        else undashed name) = (if Enabled c Style.allowLong then '-' :: '-' :: undashed name
        else if Enabled c Style.allowLongDisguise then '-' :: undashed name
        else if tok = [] ∨ ¬ Enabled c Style.allowShort then undashed name
        else if Enabled c Style.allowDashForShort then '-' :: (undashed tok).take 1
        else if Enabled c Style.allowSlashForShort then '/' :: (undashed tok).take 1
        else undashed name) := by
      have hs : Style.allowLongDisguise ≠ Style.allowLong ∧ Style.allowDashForShort ≠ Style.allowLong ∧ Style.allowDashForShort ≠ Style.allowLongDisguise ∧
          Style.allowSlashForShort ≠ Style.allowLong ∧ Style.allowSlashForShort ≠ Style.allowLongDisguise ∧
          Style.allowSlashForShort ≠ Style.allowDashForShort ∧ (0 : Nat) ≠ Style.allowLong ∧ (0 : Nat) ≠ Style.allowLongDisguise ∧
          (0 : Nat) ≠ Style.allowDashForShort ∧ (0 : Nat) ≠ Style.allowSlashForShort := by decide
      obtain ⟨a1, a2, a3, a4, a5, a6, a7, a8, a9, a10⟩ := hs
      unfold Enabled Cmdline.canonicalPrefix
      by_cases ht : tok = [] <;>
        by_cases h1 : active c.style Style.allowLong = true <;> by_cases h2 : active c.style Style.allowLongDisguise = true <;>
        by_cases h3 : active c.style Style.allowShort = true <;> by_cases h4 : active c.style Style.allowDashForShort = true <;>
        by_cases h5 : active c.style Style.allowSlashForShort = true <;>
        simp [*]
    unfold displayedBy displayed
    cases cls with
    | unknownOption | ambiguousOption => rfl
    | multipleValues | multipleOccurrences | requiredOption | cmdlineSyntax | configSyntax | validation =>
      dsimp only
      rw [if_neg hn]
      exact general
  · have hs : Style.allowLongDisguise ≠ Style.allowLong ∧ Style.allowDashForShort ≠ Style.allowLong ∧ Style.allowDashForShort ≠ Style.allowLongDisguise ∧
        Style.allowSlashForShort ≠ Style.allowLong ∧ Style.allowSlashForShort ≠ Style.allowLongDisguise ∧
        Style.allowSlashForShort ≠ Style.allowDashForShort ∧ (0 : Nat) ≠ Style.allowLong ∧ (0 : Nat) ≠ Style.allowLongDisguise ∧
        (0 : Nat) ≠ Style.allowDashForShort ∧ (0 : Nat) ≠ Style.allowSlashForShort := by decide
    obtain ⟨a1, a2, a3, a4, a5, a6, a7, a8, a9, a10⟩ := hs
    unfold dashesOf dashes Enabled Cmdline.canonicalPrefix
    by_cases h1 : active c.style Style.allowLong = true <;> by_cases h2 : active c.style Style.allowLongDisguise = true <;>
      by_cases h3 : active c.style Style.allowShort = true <;> by_cases h4 : active c.style Style.allowDashForShort = true <;>
      by_cases h5 : active c.style Style.allowSlashForShort = true <;>
      simp [*]

/-- for one of a configuration file or the environment it is the plain name. -/
theorem C83_other_sources (p : Parsed) (h : (∃ text desc u, parseConfigFile text desc u = .ok p) ∨ ∃ environ desc mapper, parseEnvironment environ desc mapper = .ok p)
    (cls : ErrClass) (hc : cls ≠ .unknownOption ∧ ∀ alts, cls ≠ .ambiguousOption alts) (name tok : Str) :
    KnownStyle p.pre ∧ displayedBy p.pre cls name tok = undashed name := by
  have hp : p.pre = 0 := by
    rcases h with ⟨text, desc, u, h⟩ | ⟨environ, desc, mapper, h⟩
    · unfold parseConfigFile at h
      split at h
      · cases h
      split at h
      · cases h
      split at h
      · cases h
      · cases h; rfl
    · unfold parseEnvironment at h
      split at h
      · cases h
      · cases h; rfl
  rw [hp]
  refine ⟨.inl rfl, ?_⟩
  unfold displayedBy
  cases cls with
  | unknownOption => exact absurd rfl hc.1
  | ambiguousOption alts => exact absurd rfl (hc.2 alts)
  | multipleValues | multipleOccurrences | requiredOption | cmdlineSyntax | configSyntax | validation =>
    simp [Style.allowLong, Style.allowLongDisguise, Style.allowDashForShort, Style.allowSlashForShort]

/-- `/fMaybe` where only a slash starts a letter: the flag is then shown as `/f`. -/
example : ∃ p, ({ desc := [Test.od "flag,f" (TypedValue.toSemantic Test.env { type := .scalar .bool })], style := 74 } : Cmdline).parse
    [Test.L "/fMaybe"] = .ok p ∧ p.pre = Style.allowSlashForShort := ⟨_, rfl, rfl⟩

namespace Ex

/-- `--flag=Maybe` for a boolean option. -/
def flagDesc : OptionDesc := Test.od "flag" (TypedValue.toSemantic Test.env { type := .scalar .bool })
def flagOpt : Opt := { stringKey := Test.L "flag", value := [Test.L "Maybe"], originalTokens := [Test.L "--flag=Maybe"] }
def flagParsed : Parsed := { desc := [flagDesc], options := [flagOpt], pre := 1 }

end Ex

set_option maxRecDepth 8000 in
example : ∃ e, (store Ex.flagParsed {} false).2 = some (.opt e) ∧ ∃ f0, ∀ f, f0 ≤ f → e.what f =
    some (Test.L "the argument ('maybe') for option '--flag' is invalid. Valid choices are 'on|off', 'yes|no', '1|0' and 'true|false'") := by
  exact C83_bad_value Ex.flagParsed (.inr (.inl rfl)) {} false [] [] Ex.flagOpt rfl (by decide) rfl (by nofun)
    (fun name hm => by obtain ⟨o, ho, -⟩ := hm; cases ho) Ex.flagDesc ⟨rfl, rfl⟩ Test.env { type := .scalar .bool } rfl .bool rfl
    (Test.L "Maybe") rfl (.narrow (Test.L "Maybe")) (.same _) .invalidBoolValue (Test.L "maybe") (.bool _ (by
      have h : ∀ word ∈ yesWords ++ noWords, (Test.L "Maybe").map Char.toLower ≠ word := by decide
      exact h)) (by decide) (by decide) (by decide) (by decide)

/-- An environment variable that is no option. -/
example : ∃ e, (store { desc := [Ex.flagDesc], options := [{ stringKey := Test.L "colour", value := [Test.L "red"] }] } {} false).2 = some (.opt e) ∧
    ∃ f0, ∀ f, f0 ≤ f → e.what f = some (Test.L "unrecognised option") :=
  C83_unknown { desc := [Ex.flagDesc], options := [{ stringKey := Test.L "colour", value := [Test.L "red"] }] } (.inl rfl) {} false [] []
    { stringKey := Test.L "colour", value := [Test.L "red"] } rfl (by decide) rfl (by nofun)
    (fun name hm => by obtain ⟨o, ho, -⟩ := hm; cases ho) rfl (by decide) (by nofun)

end PO
