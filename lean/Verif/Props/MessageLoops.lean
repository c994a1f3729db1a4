import Verif.Props.FileExplain
/-
C47, C48: exactly which values and tokens make `what()` loop, and which are quoted verbatim.
-/
namespace PO
open Spec

theorem applySubsts_mono {f : Nat} (g : Nat) (ss : SMap Str) (msg r : Str) (h : applySubsts f ss msg = some r) :
    applySubsts (f + g) ss msg = some r := by
  induction ss generalizing msg with
  | nil => exact h
  | cons p ss ih =>
    obtain ⟨k, v⟩ := p
    rw [applySubsts] at h ⊢
    cases hr : replaceToken f msg ('%' :: k ++ ['%']) v with
    | none => rw [hr] at h; cases h
    | some m =>
      rw [hr] at h
      rw [replaceToken_mono g hr]
      exact ih m h

/-- The message of every exception but `ambiguous_option`, as a substitution. -/
theorem what_subst (e : OptErr) (line : Option Str) (n t : Str) (value : Option Str) (name pre : Str) (ha : ∀ alts, e.cls ≠ .ambiguousOption alts)
    (hs : e.subst = shape line n t value) (hn : e.canonicalName = some name) (hp : e.canonicalPrefix = some pre) (f : Nat) (hf : 5 ≤ f) :
    e.what f = applySubsts f (fullShape name pre line n t value)
      (catBlks (e.cls.form.last (decide (name = [])) (decide (value.getD [] = []))) (e.cls.form.blocks (decide (name = [])) (decide (value.getD [] = [])))) := by
  have : e.what f = e.substitute f e.cls.template := by
    unfold OptErr.what
    cases hc : e.cls <;> first | exact absurd hc (ha _) | rfl
  rw [this]
  unfold OptErr.substitute
  rw [hn, hp]
  simp only
  rw [hs, fullShape_eq, defaults_shape e.cls name pre line n t value f hf]

theorem what_mono (e : OptErr) (ha : ∀ alts, e.cls ≠ .ambiguousOption alts) {f : Nat} (g : Nat) {m : Str} (h : e.what f = some m) :
    e.what (f + g) = some m := by
  have : ∀ f, e.what f = e.substitute f e.cls.template := by
    intro f
    unfold OptErr.what
    cases hc : e.cls <;> first | exact absurd hc (ha _) | rfl
  rw [this] at h ⊢
  unfold OptErr.substitute at h ⊢
  cases hn : e.canonicalName with
  | none => rw [hn] at h; cases h
  | some name =>
    cases hp : e.canonicalPrefix with
    | none => rw [hn, hp] at h; cases h
    | some pre =>
      rw [hn, hp] at h
      simp only at h ⊢
      split at h
      · cases h
      · rename_i m' hm'
        rw [applyDefaults_mono g _ _ _ _ hm']
        exact applySubsts_mono g _ _ _ h

theorem what_none (e : OptErr) (ha : ∀ alts, e.cls ≠ .ambiguousOption alts) (h : ∀ f, 5 ≤ f → e.what f = none) (f : Nat) : e.what f = none := by
  cases hw : e.what f with
  | none => rfl
  | some m =>
    have := what_mono e ha 5 hw
    rw [h (f + 5) (by omega)] at this
    cases this

/-- A text in quotation marks, behind a text without percent signs: replacing something that does not occur in the quoted text leaves both. -/
theorem quoted_stays {f : Nat} {k v a q r m' : Str} (hk : '\'' ∉ k) (ha : '%' ∉ a) (hq : ¬ placeholder k <:+: q)
    (h : replaceToken f (a ++ '\'' :: (q ++ '\'' :: r)) (placeholder k) v = some m') : ∃ r', m' = a ++ '\'' :: (q ++ '\'' :: r') := by
  have hk' : '\'' ∉ placeholder k := by simp [placeholder, hk]
  rw [replaceToken_skip (placeholder_ne k) hk' _ _ _ _ (placeholder_noPercent ha),
    replaceToken_skip (placeholder_ne k) hk' _ _ _ _ hq] at h
  cases hr : replaceToken f r (placeholder k) v with
  | none => rw [hr] at h; cases h
  | some r' =>
    rw [hr] at h
    simp only [Option.map_some, Option.some.injEq] at h
    exact ⟨r', h.symm⟩

theorem applySubsts_hole_none {f : Nat} {ss : SMap Str} {k v a r : Str} (ha : '%' ∉ a) (hs : ∀ p ∈ ss, '\'' ∉ p.1 ∧ ¬ placeholder p.1 <:+: placeholder k)
    (hv : placeholder k <:+: v) : applySubsts f (ss ++ [(k, v)]) (a ++ '\'' :: (placeholder k ++ '\'' :: r)) = none := by
  induction ss generalizing r with
  | nil =>
    rw [List.nil_append, applySubsts]
    rw [show '%' :: k ++ ['%'] = placeholder k from rfl, replaceToken_diverges f _ _ _ ⟨a ++ ['\''], '\'' :: r, by simp⟩ hv]
  | cons p ss ih =>
    obtain ⟨k', v'⟩ := p
    obtain ⟨h1, h2⟩ := hs (k', v') (by simp)
    rw [List.cons_append, applySubsts]
    rw [show '%' :: k' ++ ['%'] = placeholder k' from rfl]
    cases h : replaceToken f (a ++ '\'' :: (placeholder k ++ '\'' :: r)) (placeholder k') v' with
    | none => rfl
    | some m' =>
      obtain ⟨r', rfl⟩ := quoted_stays h1 ha h2 h
      exact ih fun p hp => hs p (by simp [hp])

/-- **C47, values.** Whatever the option is called and whatever was typed: if the offending value contains `%value%`, `what()` of
`invalid_option_value` and of `invalid_bool_value` never returns. -/
theorem C47_value_hangs (v option token : Str) (style : Nat) (hk : KnownStyle style) (h : str% "%value%" <:+: v) (e : OptErr)
    (he : errInvalidValue v = .opt e ∨ errInvalidBool v = .opt e) (f : Nat) : (e.addContext option token style).what f = none := by
  obtain ⟨k, hkk, rfl⟩ : ∃ k : ValidKind, (k = .invalidOptionValue ∨ k = .invalidBoolValue) ∧ e = (OptErr.mk' (.validation k)).setSubst (str% "value") v := by
    rcases he with he | he
    · exact ⟨_, .inl rfl, by unfold errInvalidValue at he; injection he with he; exact he.symm⟩
    · exact ⟨_, .inr rfl, by unfold errInvalidBool at he; injection he with he; exact he.symm⟩
  have h0 : v ≠ [] := by
    rintro rfl
    simp at h
  have hs : (((OptErr.mk' (.validation k)).setSubst (str% "value") v).addContext option token style).subst = shape none option token (some v) := rfl
  have hc : (((OptErr.mk' (.validation k)).setSubst (str% "value") v).addContext option token style).cls = .validation k := rfl
  have hst : (((OptErr.mk' (.validation k)).setSubst (str% "value") v).addContext option token style).style = style := rfl
  generalize (((OptErr.mk' (.validation k)).setSubst (str% "value") v).addContext option token style) = e at hs hc hst
  obtain ⟨pre, hp, _⟩ := prefix_of_known (e := e) (by rw [hst]; exact hk)
  obtain ⟨name, hn⟩ := name_of_prefix hp
  have ha : ∀ alts, e.cls ≠ .ambiguousOption alts := by rw [hc]; nofun
  refine what_none e ha (fun f hf => ?_) f
  rw [what_subst e none option token (some v) name pre ha hs hn hp f hf, hc]
  obtain ⟨b, hb⟩ : ∃ b, (ErrClass.validation k).form = .val b := by
    rcases hkk with rfl | rfl <;> exact ⟨_, rfl⟩
  rw [hb]
  have hb0 : decide ((some v).getD [] = []) = false := by simpa using h0
  rw [hb0]
  have : ∀ ne, ∃ r, catBlks ((Form.val b).last ne false) ((Form.val b).blocks ne false) = str% "the argument (" ++ '\'' :: (placeholder kValue ++ '\'' :: r) := by
    intro ne
    cases ne <;> exact ⟨_, rfl⟩
  obtain ⟨r, hr⟩ := this (decide (name = []))
  rw [hr]
  refine applySubsts_hole_none (ss := [(kCanon, name), (kOption, option), (kToken, token), (kPrefix, pre)]) (by simp) ?_ h
  intro p hp'
  simp only [List.mem_cons, List.not_mem_nil, or_false] at hp'
  rcases hp' with rfl | rfl | rfl | rfl <;> (refine ⟨?_, not_infix_dec ?_⟩ <;> dsimp only <;> decide)

/-- **C47, values, exactly.** For an option and a token without placeholders, `what()` of `invalid_option_value` and of `invalid_bool_value`
returns if and only if the offending value does not contain `%value%`. -/
theorem C47_value_iff (v option token : Str) (style : Nat) (hk : KnownStyle style) (h1 : Clean option) (h2 : Clean token) (e : OptErr)
    (he : errInvalidValue v = .opt e ∨ errInvalidBool v = .opt e) : Returns (e.addContext option token style) ↔ ¬ str% "%value%" <:+: v := by
  constructor
  · rintro ⟨f, m, hm⟩ hi
    rw [C47_value_hangs v option token style hk hi e he f] at hm
    cases hm
  · intro hv
    obtain ⟨k, rfl⟩ : ∃ k : ValidKind, e = (OptErr.mk' (.validation k)).setSubst (str% "value") v := by
      rcases he with he | he
      · exact ⟨_, by unfold errInvalidValue at he; injection he with he; exact he.symm⟩
      · exact ⟨_, by unfold errInvalidBool at he; injection he with he; exact he.symm⟩
    have hcls : (((OptErr.mk' (.validation k)).setSubst (str% "value") v).addContext option token style).cls = .validation k := rfl
    have hs : (((OptErr.mk' (.validation k)).setSubst (str% "value") v).addContext option token style).subst = shape none option token (some v) := rfl
    have hst : (((OptErr.mk' (.validation k)).setSubst (str% "value") v).addContext option token style).style = style := rfl
    obtain ⟨s1, s2, s3, s4⟩ := substD_shape _ none option token (some v) hs
    obtain ⟨nm, _, e2⟩ := C48_verbatim_partial _ (.context _ option token style (.value _ v (.mk (.validation k) [] [] 0))) (by rw [hst]; exact hk)
      (by rw [hcls]; nofun) (by rw [hcls]; rintro (h | h) <;> cases h) (by rw [s1]; exact h1) (by rw [s2]; exact h2) (by rw [s3]; exact hv)
      (by rw [s4]; exact clean_nil)
    exact ⟨5, _, e2 5 (Nat.le_refl _)⟩

/-! ### Displayed names -/

/-- **C47, displayed names.** An exception other than `ambiguous_option` whose displayed name contains `%canonical_option%` has a `what()`
that never returns, unless it is about a line of a file. -/
theorem C47_name_hangs (e : OptErr) (hb : Built e) (ha : ∀ alts, e.cls ≠ .ambiguousOption alts)
    (hl : e.cls ≠ .cmdlineSyntax .unrecognizedLine ∧ e.cls ≠ .configSyntax .unrecognizedLine) (hk : KnownStyle e.style) (name : Str)
    (hn : e.canonicalName = some name) (h : str% "%canonical_option%" <:+: name) (f : Nat) : e.what f = none := by
  have h0 : name ≠ [] := by
    rintro rfl
    simp at h
  obtain ⟨pre, hp, _⟩ := prefix_of_known hk
  obtain ⟨line, n, t, value, hs⟩ := built_shape hb
  refine what_none e ha (fun f hf => ?_) f
  rw [what_subst e line n t value name pre ha hs hn hp f hf]
  have hb0 : decide (name = []) = false := by simpa using h0
  rw [hb0]
  have hm : ∀ ve, placeholder kCanon <:+: catBlks (e.cls.form.last false ve) (e.cls.form.blocks false ve) := by
    intro ve
    cases hform : e.cls.form with
    | opt a b => exact ⟨a ++ str% "option '", str% "'" ++ b, by simp [Form.blocks, Form.last, catBlks, Blk.render]⟩
    | val b =>
      cases ve
      · exact ⟨str% "the argument ('" ++ placeholder kValue ++ str% "') for option '", str% "'" ++ b, by simp [Form.blocks, Form.last, catBlks, Blk.render]⟩
      · exact ⟨str% "the argument for option '", str% "'" ++ b, by simp [Form.blocks, Form.last, catBlks, Blk.render]⟩
    | line => rcases form_line _ hform with h' | h' <;> simp [h'] at hl
  unfold fullShape
  rw [List.cons_append, List.cons_append, applySubsts, show '%' :: kCanon ++ ['%'] = placeholder kCanon from rfl, replaceToken_diverges f _ _ _ (hm _) h]

/-! ### Unknown options -/

theorem quoted_infix {k a s : Str} (hk : '\'' ∉ k) (ha : '%' ∉ a) : placeholder k <:+: a ++ '\'' :: (s ++ ['\'']) ↔ placeholder k <:+: s := by
  have hk' : '\'' ∉ placeholder k := by simp [placeholder, hk]
  constructor
  · intro h
    apply Classical.byContradiction
    intro hs
    refine absurd h (findSub_eq_none.1 ?_)
    rw [findSub_append (placeholder_ne k) hk', findSub_eq_none.2 (placeholder_noPercent ha), findSub_append (placeholder_ne k) hk',
      findSub_eq_none.2 hs, show findSub [] (placeholder k) = none from rfl]
    rfl
  · intro h
    exact h.trans ⟨a ++ ['\''], ['\''], by simp⟩

theorem replaceToken_shrinks (src dst : Str) (hs : dst.length < src.length) (msg : Str) : ∀ f, msg.length ≤ f → ∃ r, replaceToken f msg src dst = some r ∧ r.length ≤ msg.length ∧
    (src <:+: msg → r.length < msg.length) := by
  intro f
  induction f generalizing msg with
  | zero =>
    intro hf
    have : msg = [] := List.length_eq_zero_iff.1 (by omega)
    subst this
    have hn : ¬ src <:+: [] := by
      intro h
      simp at h
      subst h
      simp at hs
    exact ⟨_, replaceToken_none hn, Nat.le_refl _, fun h => absurd h hn⟩
  | succ f ih =>
    intro hf
    cases h : findSub msg src with
    | none => exact ⟨_, replaceToken_none (findSub_eq_none.1 h), Nat.le_refl _, fun h' => absurd h' (findSub_eq_none.1 h)⟩
    | some i =>
      have he := findSub_eq_some h
      have hl : msg.length = (msg.take i).length + src.length + (msg.drop (i + src.length)).length := by
        conv => lhs; rw [he]
        simp only [List.length_append]
      rw [replaceToken, h]
      dsimp only
      obtain ⟨r, h1, h2, _⟩ := ih (msg.take i ++ dst ++ msg.drop (i + src.length)) (by simp only [List.length_append] at hl ⊢; omega)
      refine ⟨r, h1, ?_⟩
      simp only [List.length_append] at h2 hl
      exact ⟨by omega, fun _ => by omega⟩

theorem prefix_short {e : OptErr} {pre : Str} (h : KnownStyle e.style) (hp : e.canonicalPrefix = some pre) : pre.length ≤ 2 := by
  rcases h with h | h | h | h | h <;>
    (simp only [OptErr.canonicalPrefix, h] at hp; simp [Style.allowLong, Style.allowDashForShort, Style.allowSlashForShort, Style.allowLongDisguise] at hp; subst hp; simp)

/-- What `what()` of an unknown option makes of the token. -/
theorem unknown_what (tok : Str) (style : Nat) (hk : KnownStyle style) (h0 : tok ≠ []) (ho : ¬ str% "%option%" <:+: tok) :
    (str% "%canonical_option%" <:+: tok ∨ str% "%original_token%" <:+: tok → ∀ f, ((OptErr.mk' .unknownOption).addContext [] tok style).what f = none) ∧
    (¬ str% "%canonical_option%" <:+: tok → ¬ str% "%original_token%" <:+: tok → ∃ pre : Str, pre.length ≤ 2 ∧ ∀ f, 5 ≤ f →
      ((OptErr.mk' .unknownOption).addContext [] tok style).what f = replaceToken f (str% "unrecognised option '" ++ tok ++ str% "'") (str% "%prefix%") pre) := by
  have hs : ((OptErr.mk' .unknownOption).addContext [] tok style).subst = shape none [] tok none := rfl
  have hc : ((OptErr.mk' .unknownOption).addContext [] tok style).cls = .unknownOption := rfl
  have hst : ((OptErr.mk' .unknownOption).addContext [] tok style).style = style := rfl
  have hn : ((OptErr.mk' .unknownOption).addContext [] tok style).canonicalName = some tok := rfl
  generalize (OptErr.mk' .unknownOption).addContext [] tok style = e at hs hc hst hn
  have hke : KnownStyle e.style := by rw [hst]; exact hk
  obtain ⟨pre, hp, _⟩ := prefix_of_known hke
  have ha : ∀ alts, e.cls ≠ .ambiguousOption alts := by rw [hc]; nofun
  have hq : str% "unrecognised option '" ++ tok ++ str% "'" = str% "unrecognised option " ++ '\'' :: (tok ++ ['\'']) := by simp
  have hb0 : decide (tok = []) = false := by simpa using h0
  -- the first two substitutions
  have hcan : ¬ str% "%canonical_option%" <:+: tok → ∀ f, 5 ≤ f → e.what f =
      applySubsts f [(kToken, tok), (kPrefix, pre)] (str% "unrecognised option '" ++ tok ++ str% "'") := by
    intro hn1 f hf
    rw [what_subst e none [] tok none tok pre ha hs hn hp f hf, hc, hb0]
    show applySubsts f ((kCanon, tok) :: (kOption, []) :: [(kToken, tok), (kPrefix, pre)])
      (catBlks [] [.text (str% "unrecognised option "), .hole kCanon []]) = _
    have hr := replaceToken_blocks (k := kCanon) (v := tok) (by decide) (ss := []) [] (by simp) [.text (str% "unrecognised option "), .hole kCanon []] (by
      intro b hb
      simp only [List.mem_cons, List.not_mem_nil, or_false] at hb
      rcases hb with rfl | rfl
      · exact ⟨placeholder_noPercent (by simp), trivial⟩
      · simp only [Blk.Fillable, if_true]
        exact ⟨by rw [List.append_nil]; exact hn1, trivial⟩)
    have hr' := replaceToken_mono (f - 2) hr
    rw [show [Blk.text (str% "unrecognised option "), Blk.hole kCanon []].length + (f - 2) = f from by simp; omega] at hr'
    rw [applySubsts, show '%' :: kCanon ++ ['%'] = placeholder kCanon from rfl, hr']
    have hm : catBlks [] (List.map (Blk.step kCanon tok) [.text (str% "unrecognised option "), .hole kCanon []]) = str% "unrecognised option '" ++ tok ++ str% "'" := by
      simp [catBlks, Blk.step, Blk.render]
    rw [hm]
    dsimp only
    rw [applySubsts, show '%' :: kOption ++ ['%'] = placeholder kOption from rfl, replaceToken_none]
    rw [hq]
    exact fun h => ho ((quoted_infix (by decide) (by simp)).1 h)
  constructor
  · rintro h
    refine what_none e ha fun f hf => ?_
    by_cases hcn : str% "%canonical_option%" <:+: tok
    · rw [what_subst e none [] tok none tok pre ha hs hn hp f hf, hc, hb0]
      show applySubsts f ((kCanon, tok) :: (kOption, []) :: [(kToken, tok), (kPrefix, pre)])
        (catBlks [] [.text (str% "unrecognised option "), .hole kCanon []]) = _
      rw [applySubsts, show '%' :: kCanon ++ ['%'] = placeholder kCanon from rfl, replaceToken_diverges f (catBlks [] [.text (str% "unrecognised option "), .hole kCanon []]) (placeholder kCanon) tok ⟨str% "unrecognised option '", str% "'", rfl⟩ hcn]
    · have ht := h.resolve_left hcn
      rw [hcan hcn f hf, applySubsts, show '%' :: kToken ++ ['%'] = placeholder kToken from rfl, replaceToken_diverges]
      · rw [hq]
        exact (quoted_infix (by decide) (by simp)).2 ht
      · exact ht
  · intro hcn ht
    refine ⟨pre, prefix_short hke hp, fun f hf => ?_⟩
    rw [hcan hcn f hf, applySubsts, show '%' :: kToken ++ ['%'] = placeholder kToken from rfl, replaceToken_none]
    · dsimp only
      rw [applySubsts, show '%' :: kPrefix ++ ['%'] = str% "%prefix%" from rfl]
      cases replaceToken f (str% "unrecognised option '" ++ tok ++ str% "'") (str% "%prefix%") pre <;> rfl
    · rw [hq]
      exact fun h => ht ((quoted_infix (by decide) (by simp)).1 h)

/-- **C47, unknown options, exactly.** For a token without `%option%`, `what()` of the `unknown_option` the parser throws returns if and
only if the token contains neither `%canonical_option%` nor `%original_token%`. -/
theorem C47_unknown_iff (tok : Str) (style : Nat) (hk : KnownStyle style) (ho : ¬ str% "%option%" <:+: tok) :
    Returns ((OptErr.mk' .unknownOption).addContext [] tok style) ↔ ¬ str% "%canonical_option%" <:+: tok ∧ ¬ str% "%original_token%" <:+: tok := by
  by_cases h0 : tok = []
  · subst h0
    have : ¬ str% "%canonical_option%" <:+: ([] : Str) ∧ ¬ str% "%original_token%" <:+: ([] : Str) := by simp
    refine ⟨fun _ => this, fun _ => C47_returns_partial _ (.context _ _ _ _ (.mk _ _ _ _)) hk (by rintro (h | h) <;> cases h) clean_nil clean_nil clean_nil clean_nil (by nofun)⟩
  · obtain ⟨h1, h2⟩ := unknown_what tok style hk h0 ho
    constructor
    · rintro ⟨f, m, hm⟩
      refine ⟨fun h => ?_, fun h => ?_⟩
      · rw [h1 (.inl h)] at hm; cases hm
      · rw [h1 (.inr h)] at hm; cases hm
    · rintro ⟨hcn, ht⟩
      obtain ⟨pre, hlen, hw⟩ := h2 hcn ht
      obtain ⟨r, hr, _⟩ := replaceToken_shrinks (str% "%prefix%") pre (by simp; omega) (str% "unrecognised option '" ++ tok ++ str% "'")
        ((str% "unrecognised option '" ++ tok ++ str% "'").length) (Nat.le_refl _)
      exact ⟨_, r, (hw _ (by simp)).trans hr⟩

/-- **C48, unknown options, exactly.** For a token without `%option%`, the message is the documented one with the token as typed if and only
if the token contains none of `%canonical_option%`, `%original_token%` and `%prefix%`. -/
theorem C48_unknown_iff (tok : Str) (style : Nat) (hk : KnownStyle style) (h0 : tok ≠ []) (ho : ¬ str% "%option%" <:+: tok) :
    (∃ f, ((OptErr.mk' .unknownOption).addContext [] tok style).what f = some (str% "unrecognised option '" ++ tok ++ str% "'")) ↔
      ¬ str% "%canonical_option%" <:+: tok ∧ ¬ str% "%original_token%" <:+: tok ∧ ¬ str% "%prefix%" <:+: tok := by
  obtain ⟨h1, h2⟩ := unknown_what tok style hk h0 ho
  have hq : str% "unrecognised option '" ++ tok ++ str% "'" = str% "unrecognised option " ++ '\'' :: (tok ++ ['\'']) := by simp
  have hi : str% "%prefix%" <:+: str% "unrecognised option '" ++ tok ++ str% "'" ↔ str% "%prefix%" <:+: tok := by
    rw [hq]
    exact quoted_infix (k := kPrefix) (by decide) (by simp)
  constructor
  · rintro ⟨f, hm⟩
    have hcn : ¬ str% "%canonical_option%" <:+: tok := by
      intro h
      rw [h1 (.inl h)] at hm; cases hm
    have ht : ¬ str% "%original_token%" <:+: tok := by
      intro h
      rw [h1 (.inr h)] at hm; cases hm
    refine ⟨hcn, ht, fun hp => ?_⟩
    obtain ⟨pre, hlen, hw⟩ := h2 hcn ht
    obtain ⟨r, hr, _, hlt⟩ := replaceToken_shrinks (str% "%prefix%") pre (by simp; omega) (str% "unrecognised option '" ++ tok ++ str% "'")
      ((str% "unrecognised option '" ++ tok ++ str% "'").length) (Nat.le_refl _)
    have hm' := what_mono _ (by nofun) ((str% "unrecognised option '" ++ tok ++ str% "'").length) hm
    have hr' := replaceToken_mono f hr
    rw [hw _ (by simp; omega), Nat.add_comm, hr'] at hm'
    injection hm' with hm'
    have := hlt (hi.2 hp)
    rw [hm'] at this
    exact Nat.lt_irrefl _ this
  · rintro ⟨hcn, ht, hp⟩
    obtain ⟨pre, _, hw⟩ := h2 hcn ht
    exact ⟨5, (hw 5 (Nat.le_refl _)).trans (replaceToken_none fun h => hp (hi.1 h))⟩

/-! ### Examples -/

/-- A value that makes `what()` loop, and one that does not. -/
example : ¬ Returns (((OptErr.mk' (.validation .invalidOptionValue)).setSubst (str% "value") (str% "%value%")).addContext (str% "level") (str% "--level") 1) ∧
    Returns (((OptErr.mk' (.validation .invalidOptionValue)).setSubst (str% "value") (str% "%option%")).addContext (str% "level") (str% "--level") 1) := by
  have hc : ∀ s : Str, '%' ∉ s → Clean s := fun s hs k _ => placeholder_noPercent hs
  rw [C47_value_iff (str% "%value%") _ _ _ (.inr (.inl rfl)) (hc _ (by simp)) (hc _ (by simp)) _ (.inl rfl),
    C47_value_iff (str% "%option%") _ _ _ (.inr (.inl rfl)) (hc _ (by simp)) (hc _ (by simp)) _ (.inl rfl)]
  exact ⟨fun h => h (List.infix_refl _), findSub_eq_none.1 (by decide)⟩

/-- `--a%prefix%` is displayed as `--a--`. -/
example : ((OptErr.mk' .unknownOption).addContext [] (str% "--a%prefix%") 1).what 5 = some (str% "unrecognised option '--a--'") ∧
    (¬ ∃ f, ((OptErr.mk' .unknownOption).addContext [] (str% "--a%prefix%") 1).what f = some (str% "unrecognised option '--a%prefix%'")) := by
  refine ⟨by decide, ?_⟩
  have := C48_unknown_iff (str% "--a%prefix%") 1 (.inr (.inl rfl)) (by decide) (findSub_eq_none.1 (by decide))
  intro h
  exact (this.1 h).2.2 ⟨str% "--a", [], rfl⟩

end PO
