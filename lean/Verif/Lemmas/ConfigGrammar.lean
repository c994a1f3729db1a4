import Verif.Lemmas.ConfigReader
import Verif.Spec.ConfigGrammar
/-
The configuration-file reader follows the grammar.
-/
namespace PO
open Spec

theorem whiteSpace_iff (c : Char) : WhiteSpace c ↔ isWs c = true := by
  simp [WhiteSpace, isWs, or_assoc]

theorem padded_iff (l s : Str) : Padded l s ↔ trimWs l = s := by
  constructor
  · rintro ⟨a, b, rfl, ha, hb, ht⟩
    rw [trimWs_right _ _ fun c hc => (whiteSpace_iff c).1 (hb c hc), trimWs_left _ _ fun c hc => (whiteSpace_iff c).1 (ha c hc),
      trimWs_of_trimmed ht]
  · rintro rfl
    refine ⟨l.takeWhile isWs, ((l.dropWhile isWs).reverse.takeWhile isWs).reverse, ?_, ?_, ?_, ?_⟩
    · unfold trimWs
      rw [List.append_assoc, ← List.reverse_append, List.takeWhile_append_dropWhile, List.reverse_reverse,
        List.takeWhile_append_dropWhile]
    · intro c hc
      have := List.all_takeWhile (l := l) (p := isWs)
      rw [List.all_eq_true] at this
      exact (whiteSpace_iff c).2 (this c hc)
    · intro c hc
      have := List.all_takeWhile (l := (l.dropWhile isWs).reverse) (p := isWs)
      rw [List.all_eq_true] at this
      exact (whiteSpace_iff c).2 (this c (by simpa using hc))
    · rw [trimmed_iff]; exact trimWs_ends l

theorem says_iff (l s : Str) : Says l s ↔ stripLine l = s := by
  rw [stripLine_eq]
  constructor
  · rintro ⟨t, com, rfl, ht, hc, hp⟩
    rw [takeWhile_append_hash, if_neg ht]
    have : com.takeWhile (· != '#') = [] := by
      rcases hc with rfl | hc
      · rfl
      · cases com with
        | nil => rfl
        | cons x com => simp at hc; subst hc; simp
    rw [this, List.append_nil]
    exact (padded_iff t s).1 hp
  · intro h
    refine ⟨l.takeWhile (· != '#'), l.dropWhile (· != '#'), by rw [List.takeWhile_append_dropWhile], ?_, ?_, (padded_iff _ _).2 h⟩
    · intro hm
      have := List.all_takeWhile (l := l) (p := (· != '#'))
      rw [List.all_eq_true] at this
      simpa using this _ hm
    · cases hd : l.dropWhile (· != '#') with
      | nil => exact .inl rfl
      | cons x t =>
        right
        have := List.head?_dropWhile_not (p := (· != '#')) (l := l)
        rw [hd] at this
        simpa using this

theorem bracketed_iff (s : Str) : (s.head? = some '[' ∧ s.getLast? = some ']') ↔ ∃ m, s = '[' :: m ++ [']'] := by
  constructor
  · rintro ⟨h1, h2⟩
    cases s with
    | nil => simp at h1
    | cons x s =>
      simp at h1; subst h1
      cases s with
      | nil => simp at h2
      | cons y s =>
        rw [List.getLast?_cons_cons, List.getLast?_eq_some_iff] at h2
        obtain ⟨m, hm⟩ := h2
        exact ⟨m, by rw [hm]; rfl⟩
  · rintro ⟨m, rfl⟩
    exact ⟨rfl, List.getLast?_concat ..⟩

theorem line_bracket (it : ConfigIter) (pre m : Str) (hm : m ≠ []) :
    it.line pre ('[' :: m ++ [']']) = .ok (.section_ (sectionPrefix m)) := by
  unfold ConfigIter.line
  rw [if_neg (by simp), if_pos ((bracketed_iff _).2 ⟨m, rfl⟩)]
  have h2 : substr ('[' :: m ++ [']']) 1 (('[' :: m ++ [']']).length - 2) = m := by
    simp [substr]
  simp only [h2, sectionPrefix]
  cases hl : m.getLast? with
  | none => rw [List.getLast?_eq_none_iff] at hl; exact absurd hl hm
  | some c =>
    by_cases hc : c = '.'
    · subst hc; simp
    · split
      · rename_i h; cases h
      · rename_i h; injection h with h; exact absurd h hc
      · rename_i h; injection h with h; subst h; simp [hc]

theorem line_emptyBracket (it : ConfigIter) (pre : Str) : it.line pre ['[', ']'] = .error (.ub .emptySection) := rfl

theorem line_configItem (it : ConfigIter) (pre : Str) {s n v : Str} (h : ConfigItem s n v) :
    it.line pre s =
      if it.allowed (pre ++ n) = false ∧ it.allowUnregistered = false then .error (errUnknown (pre ++ n))
      else .ok (.option (itemOption (pre ++ n) v (!it.allowed (pre ++ n)))) := by
  obtain ⟨a, b, rfl, hne, hn, hv⟩ := h.split
  rw [padded_iff] at hn hv
  unfold ConfigIter.line
  rw [if_neg (by simp), if_neg fun hh => by
    obtain ⟨m, hm⟩ := (bracketed_iff _).1 hh
    exact h.notHeader m hm]
  have h2 : findChar (a ++ '=' :: b) '=' = some a.length := findChar_append hne
  have h3 : (a ++ '=' :: b).take a.length = a := by simp
  have h4 : (a ++ '=' :: b).drop (a.length + 1) = b := by simp
  simp only [h2, h3, h4, hn, hv]
  cases it.allowed (pre ++ n) <;> cases it.allowUnregistered <;> rfl

theorem line_neither (it : ConfigIter) (pre : Str) {s : Str} (h0 : s ≠ []) (hh : ∀ m, s ≠ '[' :: m ++ [']']) (he : '=' ∉ s) :
    it.line pre s = .error (errConfigSyntax s .unrecognizedLine) := by
  unfold ConfigIter.line
  rw [if_neg h0, if_neg fun hb => by
    obtain ⟨m, hm⟩ := (bracketed_iff _).1 hb
    exact hh m hm]
  simp only [findChar_eq_none.2 he]

/-- A line is of one of four kinds. -/
theorem line_kinds (s : Str) : s = [] ∨ (∃ m, s = '[' :: m ++ [']']) ∨ (∃ n v, ConfigItem s n v) ∨
    (s ≠ [] ∧ (∀ m, s ≠ '[' :: m ++ [']']) ∧ '=' ∉ s) := by
  by_cases h0 : s = []
  · exact .inl h0
  · by_cases hh : ∃ m, s = '[' :: m ++ [']']
    · exact .inr (.inl hh)
    · have hh' : ∀ m, s ≠ '[' :: m ++ [']'] := fun m hm => hh ⟨m, hm⟩
      by_cases he : '=' ∈ s
      · obtain ⟨a, b, rfl, hne⟩ := List.eq_append_cons_of_mem he
        exact .inr (.inr (.inl ⟨trimWs a, trimWs b, hh', a, b, rfl, hne, (padded_iff _ _).2 rfl, (padded_iff _ _).2 rfl⟩))
      · exact .inr (.inr (.inr ⟨h0, hh', he⟩))

theorem errUnknown_eq (tok : Str) : errUnknown tok =
    .opt { cls := .unknownOption, style := 0, subst := [(str% "option", []), (str% "original_token", tok)] } := rfl

theorem errConfigSyntax_eq (s : Str) (k : SyntaxKind) : errConfigSyntax s k =
    .opt { cls := .configSyntax k, style := 0, subst := [(str% "invalid_line", s), (str% "option", []), (str% "original_token", [])] } := rfl

section
variable {desc : List OptionDesc} {au : Bool} (it : ConfigIter) (hau : it.allowUnregistered = au)
  (hall : ∀ name, it.allowed name = true ↔ Accepts desc name)

include hau hall

theorem fileLines_sound {pre : Str} {ls : List Str} {os : List Opt} (h : FileLines desc au pre ls os) : it.lines pre ls = .ok os := by
  induction h with
  | nil => rfl
  | blank h t ih =>
    rw [says_iff] at h
    rw [ConfigIter.lines, h]
    exact ih
  | header s h hs t ih =>
    rw [says_iff] at h
    rw [ConfigIter.lines, h, line_bracket _ _ _ hs]
    exact ih
  | known s n v h hi ha t ih =>
    rw [says_iff] at h
    have := (hall _).2 ha
    rw [ConfigIter.lines, h, line_configItem _ _ hi, if_neg (by rw [this]; simp), this]
    simp only [ih]
    rfl
  | unknown s n v h hi ha hu t ih =>
    rw [says_iff] at h
    have h1 : it.allowed _ = false := Bool.eq_false_iff.2 fun hh => ha ((hall _).1 hh)
    rw [ConfigIter.lines, h, line_configItem _ _ hi, if_neg (by rw [hau, hu]; simp), h1]
    simp only [ih]
    rfl

theorem badLines_sound {pre : Str} {ls : List Str} {f : Fail} (h : BadLines desc au pre ls f) : it.lines pre ls = .error f := by
  induction h with
  | blank h t ih =>
    rw [says_iff] at h
    rw [ConfigIter.lines, h]
    exact ih
  | header s h hs t ih =>
    rw [says_iff] at h
    rw [ConfigIter.lines, h, line_bracket _ _ _ hs]
    exact ih
  | item s n v h hi ha t ih =>
    rw [says_iff] at h
    rw [ConfigIter.lines, h, line_configItem _ _ hi, if_neg]
    · simp only [ih]
    · rintro ⟨h1, h2⟩
      rcases ha with ha | ha
      · rw [(hall _).2 ha] at h1; cases h1
      · rw [hau, ha] at h2; cases h2
  | emptyHeader h =>
    rw [says_iff] at h
    rw [ConfigIter.lines, h, line_emptyBracket]
  | unknown s n v h hi ha hu =>
    rw [says_iff] at h
    have h1 : it.allowed _ = false := Bool.eq_false_iff.2 fun hh => ha ((hall _).1 hh)
    rw [ConfigIter.lines, h, line_configItem _ _ hi, if_pos ⟨h1, by rw [hau, hu]⟩]
    rfl
  | neither s h h0 hh he =>
    rw [says_iff] at h
    rw [ConfigIter.lines, h, line_neither _ _ h0 hh he]
    rfl

omit hau hall in
theorem fileLines_total (pre : Str) (ls : List Str) : (∃ os, FileLines desc au pre ls os) ∨ ∃ f, BadLines desc au pre ls f := by
  induction ls generalizing pre with
  | nil => exact .inl ⟨[], .nil⟩
  | cons l ls ih =>
    have hs : Says l (stripLine l) := (says_iff _ _).2 rfl
    rcases line_kinds (stripLine l) with h0 | ⟨m, hm⟩ | ⟨n, v, hi⟩ | ⟨h0, hh, he⟩
    · rw [h0] at hs
      rcases ih pre with ⟨os, h⟩ | ⟨f, h⟩
      · exact .inl ⟨os, .blank hs h⟩
      · exact .inr ⟨f, .blank hs h⟩
    · rw [hm] at hs
      by_cases hne : m = []
      · subst hne; exact .inr ⟨_, .emptyHeader hs⟩
      · rcases ih (sectionPrefix m) with ⟨os, h⟩ | ⟨f, h⟩
        · exact .inl ⟨os, .header m hs hne h⟩
        · exact .inr ⟨f, .header m hs hne h⟩
    · by_cases ha : Accepts desc (pre ++ n)
      · rcases ih pre with ⟨os, h⟩ | ⟨f, h⟩
        · exact .inl ⟨_, .known _ n v hs hi ha h⟩
        · exact .inr ⟨f, .item _ n v hs hi (.inl ha) h⟩
      · cases hu : au with
        | false => exact .inr ⟨_, .unknown _ n v hs hi ha rfl⟩
        | true =>
          rw [hu] at ih
          rcases ih pre with ⟨os, h⟩ | ⟨f, h⟩
          · exact .inl ⟨_, .unknown _ n v hs hi ha rfl h⟩
          · exact .inr ⟨f, .item _ n v hs hi (.inr rfl) h⟩
    · exact .inr ⟨_, .neither _ hs h0 hh he⟩

theorem lines_ok_iff (pre : Str) (ls : List Str) (os : List Opt) : it.lines pre ls = .ok os ↔ FileLines desc au pre ls os := by
  constructor
  · intro h
    rcases fileLines_total (desc := desc) (au := au) pre ls with ⟨os', h'⟩ | ⟨f, h'⟩
    · rw [fileLines_sound it hau hall h'] at h; cases h; exact h'
    · rw [badLines_sound it hau hall h'] at h; cases h
  · exact fileLines_sound it hau hall

theorem lines_error_iff (pre : Str) (ls : List Str) (f : Fail) : it.lines pre ls = .error f ↔ BadLines desc au pre ls f := by
  constructor
  · intro h
    rcases fileLines_total (desc := desc) (au := au) pre ls with ⟨os', h'⟩ | ⟨f, h'⟩
    · rw [fileLines_sound it hau hall h'] at h; cases h
    · rw [badLines_sound it hau hall h'] at h; cases h; exact h'
  · exact badLines_sound it hau hall

end

/-- An empty last line makes no difference. -/
theorem lines_trailing (it : ConfigIter) (pre : Str) (ls : List Str) (last : Str) :
    it.lines pre (ls ++ if last = [] then [] else [last]) = it.lines pre (ls ++ [last]) := by
  by_cases h : last = []
  · subst h
    rw [if_pos rfl, List.append_nil, lines_eq_scan, lines_eq_scan, scan_append]
    cases it.scan pre ls with
    | error f => rfl
    | ok r =>
      have : it.scan r.2 [[]] = .ok ([], r.2) := rfl
      simp only [this, List.append_nil]
  · rw [if_neg h]

/-! ### The overlap report -/

/-- The neighbour that `add_option` names. -/
theorem neighbour_spec {ps : SSet} (hs : ps.Sorted) (s : Str) (hne : ps ≠ []) :
    ∃ y ∈ ps, (ps[if ps.lowerBound s = 0 then ps.lowerBound s else ps.lowerBound s - 1]?).getD [] = y ∧
      ((strLt y s = true ∧ ∀ z ∈ ps, strLt z s = true → strLt y z = false) ∨
       ((∀ z ∈ ps, strLt z s = false) ∧ ∀ z ∈ ps, strLt z y = false)) := by
  obtain ⟨l1, l2⟩ := lowerBound_spec hs s
  by_cases hex : ∃ x ∈ ps, strLt x s = true
  · obtain ⟨x, hx, hlt⟩ := hex
    obtain ⟨y, h0, hy, hys, -⟩ := pred_greatest hs s x hx hlt
    refine ⟨y, List.mem_of_getElem? hy, by rw [if_neg h0, hy]; rfl, .inl ⟨hys, fun z hz hzs => ?_⟩⟩
    obtain ⟨y', -, hy', -, h⟩ := pred_greatest hs s z hz hzs
    rw [hy] at hy'; cases hy'; exact h
  · have hall : ∀ z ∈ ps, strLt z s = false := fun z hz => Bool.eq_false_iff.2 fun h => hex ⟨z, hz, h⟩
    have hpos : 0 < ps.length := List.length_pos_iff.2 hne
    have h0 : ps.lowerBound s = 0 := by
      apply Decidable.byContradiction
      intro h
      have := l1 0 ps[0] (List.getElem?_eq_getElem hpos) (by omega)
      rw [hall _ (List.getElem_mem _)] at this; cases this
    refine ⟨ps[0], List.getElem_mem _, by rw [if_pos h0, h0, List.getElem?_eq_getElem hpos]; rfl, .inr ⟨hall, fun z hz => ?_⟩⟩
    obtain ⟨y, hy, -, h⟩ := lb_least hs s z hz (hall z hz)
    rw [h0, List.getElem?_eq_getElem hpos] at hy; cases hy; exact h

/-- What `OverlapReported` says, for the names in their order. -/
def Reported (ns : List Str) (s y : Str) : Prop :=
  ∃ done rest, ns = done ++ (s ++ ['*']) :: rest ∧
    (∀ a b, a ++ ['*'] ∈ done → b ++ ['*'] ∈ done → a <+: b → a = b) ∧
    (∃ x, x ++ ['*'] ∈ done ∧ Comparable x s) ∧
    y ++ ['*'] ∈ done ∧
    ((strLt y s = true ∧ ∀ z, z ++ ['*'] ∈ done → strLt z s = true → strLt y z = false) ∨
     ((∀ z, z ++ ['*'] ∈ done → strLt z s = false) ∧ ∀ z, z ++ ['*'] ∈ done → strLt z y = false))

theorem addOptions_append (ps : SSet) (a b : List Str) : addOptions ps (a ++ b) =
    match addOptions ps a with | .error f => .error f | .ok ps' => addOptions ps' b := by
  induction a generalizing ps with
  | nil => rfl
  | cons n a ih =>
    rw [List.cons_append, addOptions, addOptions]
    cases addOption ps n with
    | error f => rfl
    | ok p => exact ih p

/-- The names are taken in without complaint as long as their stems are incomparable. -/
theorem addOptions_ok (ns : List Str) (hnd : ns.Nodup) (hne : ∀ n ∈ ns, n ≠ [])
    (hp : ∀ a b, a ++ ['*'] ∈ ns → b ++ ['*'] ∈ ns → a <+: b → a = b) :
    ∃ ps, addOptions [] ns = .ok ps ∧ SSet.Sorted ps ∧ PrefixFree ps ∧ ∀ x, x ∈ ps ↔ x ++ ['*'] ∈ ns := by
  rcases addOptions_spec ns [] [] (by simp) (by intro x hx; cases hx) hne (by simpa using hnd) (by simp)
    with ⟨ps, a1, a2, a3, a4⟩ | ⟨s, y, x, a1, a2, a3, a4, a5, a6, a7⟩
  · exact ⟨ps, a1, a2, a3, by simpa using a4⟩
  · simp only [List.nil_append] at a2 a4
    rcases a7 with h | h
    · exact absurd (hp _ _ a4 a2 h) a6
    · exact absurd (hp _ _ a2 a4 h) (Ne.symm a6)

theorem addOptions_reported {ns : List Str} {s y : Str} (hnd : ns.Nodup) (hne : ∀ n ∈ ns, n ≠ []) (h : Reported ns s y) :
    addOptions [] ns = .error (.error (overlapMsg (s ++ ['*']) y)) := by
  obtain ⟨done, rest, rfl, hp, ⟨x, hx, hc⟩, hy, hb⟩ := h
  have hnd' : done.Nodup := (List.nodup_append.1 hnd).1
  obtain ⟨ps, h1, h2, h3, h4⟩ := addOptions_ok done hnd' (fun n hn => hne n (by simp [hn])) hp
  rw [addOptions_append, h1]
  simp only
  rw [addOptions, addOption_star]
  have ht : nextTest ps s = true ∨ prevTest ps s = true := (overlap_test h2 h3 s).2 ⟨x, (h4 x).2 hx, hc⟩
  rw [if_pos (by rw [Bool.or_eq_true]; exact ht)]
  obtain ⟨y', hm, he, hb'⟩ := neighbour_spec h2 s (List.ne_nil_of_mem ((h4 x).2 hx))
  rw [he]
  have : y' = y := by
    rw [h4] at hm
    simp only [h4] at hb'
    rcases hb with ⟨b1, b2⟩ | ⟨b1, b2⟩ <;> rcases hb' with ⟨c1, c2⟩ | ⟨c1, c2⟩
    · exact strLt_connex (c2 y hy b1) (b2 y' hm c1)
    · rw [c1 y hy] at b1; cases b1
    · rw [b1 y' hm] at c1; cases c1
    · exact strLt_connex (b2 y' hm) (c2 y hy)
  rw [this]

/-- If stems are comparable then there is a report. -/
theorem exists_reported (ns done : List Str) (hnd : (done ++ ns).Nodup) (hne : ∀ n ∈ done ++ ns, n ≠ [])
    (hp : ∀ a b, a ++ ['*'] ∈ done → b ++ ['*'] ∈ done → a <+: b → a = b) :
    (∀ a b, a ++ ['*'] ∈ done ++ ns → b ++ ['*'] ∈ done ++ ns → a <+: b → a = b) ∨ ∃ s y, Reported (done ++ ns) s y := by
  induction ns generalizing done with
  | nil => left; simpa using hp
  | cons n ns ih =>
    by_cases hov : ∃ s, n = s ++ ['*'] ∧ ∃ x, x ++ ['*'] ∈ done ∧ Comparable x s
    · obtain ⟨s, rfl, x, hx, hc⟩ := hov
      right
      obtain ⟨ps, h1, h2, h3, h4⟩ := addOptions_ok done (List.nodup_append.1 hnd).1 (fun n hn => hne n (by simp [hn])) hp
      obtain ⟨y, hm, -, hb⟩ := neighbour_spec h2 s (List.ne_nil_of_mem ((h4 x).2 hx))
      simp only [h4] at hb hm
      exact ⟨s, y, done, ns, rfl, hp, ⟨x, hx, hc⟩, hm, hb⟩
    · have hov' : ∀ s, n = s ++ ['*'] → ∀ x, x ++ ['*'] ∈ done → ¬ Comparable x s := fun s hs x hx hc => hov ⟨s, hs, x, hx, hc⟩
      have := ih (done ++ [n]) (by simpa using hnd) (by simpa using hne) (by
        intro a b ha hb hab
        simp only [List.mem_append, List.mem_singleton] at ha hb
        rcases ha with ha | ha <;> rcases hb with hb | hb
        · exact hp a b ha hb hab
        · exact absurd (.inl hab) (hov' b hb.symm a ha)
        · exact absurd (.inr hab) (hov' a ha.symm b hb)
        · have := ha.trans hb.symm
          simpa using this)
      simpa using this

theorem sorted_ext {S T : List Str} (hS : S.Pairwise (fun a b => strLt a b = true)) (hT : T.Pairwise (fun a b => strLt a b = true))
    (h : ∀ x, x ∈ S ↔ x ∈ T) : S = T := by
  have hp : S.Perm T := (List.perm_ext_iff_of_nodup (List.Pairwise.imp (fun h => strLt_ne h) hS) (List.Pairwise.imp (fun h => strLt_ne h) hT)).2 h
  refine hp.eq_of_pairwise ?_ hS hT
  intro a b _ _ h1 h2
  rw [strLt_asymm h1] at h2; cases h2

theorem overlapReported_iff {desc : List OptionDesc} {s y : Str} : OverlapReported desc s y ↔
    ∃ done rest, (done ++ (s ++ ['*']) :: rest).Pairwise (fun a b => strLt a b = true) ∧
      (∀ n, n ∈ done ++ (s ++ ['*']) :: rest ↔ ∃ d ∈ desc, d.firstLong = n) ∧
      (∀ a b, a ++ ['*'] ∈ done → b ++ ['*'] ∈ done → a <+: b → a = b) ∧
      (∃ x, x ++ ['*'] ∈ done ∧ Comparable x s) ∧
      y ++ ['*'] ∈ done ∧
      ((strLt y s = true ∧ ∀ z, z ++ ['*'] ∈ done → strLt z s = true → strLt y z = false) ∨
       ((∀ z, z ++ ['*'] ∈ done → strLt z s = false) ∧ ∀ z, z ++ ['*'] ∈ done → strLt z y = false)) := by
  unfold OverlapReported
  simp only [strLt_iff, strLt_iff_not]

/-- The reader exists, or the overlap is reported. -/
theorem make_spec (desc : List OptionDesc) (au : Bool) (hne : ∀ d ∈ desc, d.firstLong ≠ []) :
    ∃ S, allowedNames desc [] = .ok S ∧
    ((¬ Overlap desc ∧ ∃ it, ConfigIter.make S au = .ok it ∧ it.allowUnregistered = au ∧ (∀ name, it.allowed name = true ↔ Accepts desc name)) ∨
     ((∃ s y, OverlapReported desc s y) ∧ ∀ s y, OverlapReported desc s y →
        ConfigIter.make S au = .error (.error (overlapMsg (s ++ ['*']) y)))) := by
  obtain ⟨S, h1, h2, h3⟩ := allowedNames_ok desc [] (by simp) hne
  simp only [List.not_mem_nil, false_or] at h3
  have hne' : ∀ n ∈ S, n ≠ [] := by
    intro n hn
    obtain ⟨d, hd, rfl⟩ := (h3 n).1 hn
    exact hne d hd
  refine ⟨S, h1, ?_⟩
  have hmk : ∀ s y, OverlapReported desc s y → ConfigIter.make S au = .error (.error (overlapMsg (s ++ ['*']) y)) := by
    intro s y h
    obtain ⟨done, rest, hsort, hmem, hrest⟩ := overlapReported_iff.1 h
    have : S = done ++ (s ++ ['*']) :: rest := sorted_ext h2 hsort fun x => by rw [h3, hmem]
    have := addOptions_reported (sorted_nodup h2) hne' ⟨done, rest, this, hrest⟩
    unfold ConfigIter.make; rw [this]
  rcases exists_reported S [] (by simpa using sorted_nodup h2) (by simpa using hne') (by simp) with h | ⟨s, y, done, rest, e, h⟩
  · left
    rcases reader_spec desc au hne with ⟨S', it, a, b, c, d, e⟩ | ⟨S', s, y, x, a, -, ⟨d1, m1, e1⟩, -, ⟨d3, m3, e3⟩, -, hne2, hov⟩
    · rw [h1] at a; cases a
      exact ⟨e, it, b, c, d⟩
    · exfalso
      simp only [List.nil_append, h3] at h
      rcases hov with ho | ho
      · exact hne2 (h x s ⟨d3, m3, e3⟩ ⟨d1, m1, e1⟩ ho)
      · exact hne2 (h s x ⟨d1, m1, e1⟩ ⟨d3, m3, e3⟩ ho).symm
  · right
    simp only [List.nil_append] at e
    refine ⟨⟨s, y, overlapReported_iff.2 ⟨done, rest, by rw [← e]; exact h2, fun n => by rw [← e, h3], h⟩⟩, hmk⟩

theorem overlapReported_overlap {desc : List OptionDesc} {s y : Str} (h : OverlapReported desc s y) : Overlap desc := by
  obtain ⟨done, rest, hsort, hmem, -, ⟨x, hx, hc⟩, -⟩ := overlapReported_iff.1 h
  obtain ⟨d1, m1, e1⟩ := (hmem (x ++ ['*'])).1 (by simp [hx])
  obtain ⟨d2, m2, e2⟩ := (hmem (s ++ ['*'])).1 (by simp)
  have hne : x ≠ s := by
    rintro rfl
    have := (List.pairwise_append.1 hsort).2.2 _ hx (x ++ ['*']) (by simp)
    rw [strLt_irrefl] at this; cases this
  rcases hc with hc | hc
  · exact ⟨d1, m1, d2, m2, x, s, e1, e2, hne, hc⟩
  · exact ⟨d2, m2, d1, m1, s, x, e2, e1, Ne.symm hne, hc⟩

end PO
