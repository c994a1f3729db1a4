import Verif.Lemmas.Config
import Verif.Spec.Config
/-
The configuration-file reader: construction and scanning.
-/
namespace PO
open Spec

/-! ### Construction -/

theorem longName_eq (d : OptionDesc) : d.longName = d.firstLong := by
  unfold OptionDesc.longName OptionDesc.firstLong
  cases d.longNames <;> rfl

theorem allowedNames_ok (desc : List OptionDesc) (acc : SSet) (hacc : acc.Sorted)
    (h : ∀ d ∈ desc, d.firstLong ≠ []) :
    ∃ S, allowedNames desc acc = .ok S ∧ SSet.Sorted S ∧
      ∀ x, x ∈ S ↔ x ∈ acc ∨ ∃ d ∈ desc, d.firstLong = x := by
  induction desc generalizing acc with
  | nil => exact ⟨acc, rfl, hacc, by simp⟩
  | cons d ds ih =>
    rw [allowedNames, longName_eq, if_neg (h d (by simp))]
    obtain ⟨S, h1, h2, h3⟩ := ih (acc.insert d.firstLong) (SSet.sorted_insert hacc _) fun x hx => h x (by simp [hx])
    refine ⟨S, h1, h2, fun x => ?_⟩
    rw [h3, SSet.mem_insert]
    simp only [List.mem_cons, exists_eq_or_imp]
    constructor
    · rintro ((h | h) | h)
      · exact .inr (.inl h.symm)
      · exact .inl h
      · exact .inr (.inr h)
    · rintro (h | h | h)
      · exact .inl (.inr h)
      · exact .inl (.inl h.symm)
      · exact .inr h

theorem allowedNames_error (desc : List OptionDesc) (acc : SSet) (h : ∃ d ∈ desc, d.firstLong = []) :
    allowedNames desc acc = .error (.error abbreviatedMsg) := by
  induction desc generalizing acc with
  | nil => obtain ⟨d, hd, _⟩ := h; cases hd
  | cons d ds ih =>
    rw [allowedNames, longName_eq]
    by_cases hd : d.firstLong = []
    · rw [if_pos hd]
    · rw [if_neg hd]
      refine ih _ ?_
      obtain ⟨x, hx, he⟩ := h
      rcases List.mem_cons.1 hx with rfl | hx
      · exact absurd he hd
      · exact ⟨x, hx, he⟩

theorem addOption_plain (ps : SSet) (n : Str) (h0 : n ≠ []) (h : n.getLast? ≠ some '*') : addOption ps n = .ok ps := by
  unfold addOption
  split
  · rename_i he; rw [List.getLast?_eq_none_iff] at he; exact absurd he h0
  · rename_i he; exact absurd he h
  · rfl

/-- The test on the lower bound. -/
def nextTest (ps : SSet) (s : Str) : Bool :=
  match ps[ps.lowerBound s]? with | some x => findSub x s == some 0 | none => false

/-- The test on the predecessor of the lower bound. -/
def prevTest (ps : SSet) (s : Str) : Bool :=
  if ps.lowerBound s = 0 then false
  else match ps[ps.lowerBound s - 1]? with | some x => findSub s x == some 0 | none => false

theorem addOption_star (ps : SSet) (s : Str) : addOption ps (s ++ ['*']) =
    if nextTest ps s || prevTest ps s then
      .error (.error (overlapMsg (s ++ ['*']) ((ps[if ps.lowerBound s = 0 then ps.lowerBound s else ps.lowerBound s - 1]?).getD [])))
    else .ok (ps.insert s) := by
  unfold addOption
  rw [List.getLast?_concat]
  simp only [List.dropLast_concat]
  rfl

theorem addOption_wild {ps : SSet} (hs : ps.Sorted) (hp : PrefixFree ps) (s : Str) :
    ((∃ x ∈ ps, x <+: s ∨ s <+: x) →
      ∃ y ∈ ps, addOption ps (s ++ ['*']) = .error (.error (overlapMsg (s ++ ['*']) y)) ∧
        (ps.length = 1 → y <+: s ∨ s <+: y)) ∧
    ((∀ x ∈ ps, ¬ (x <+: s ∨ s <+: x)) → addOption ps (s ++ ['*']) = .ok (ps.insert s)) := by
  have ht : nextTest ps s = true ∨ prevTest ps s = true ↔ ∃ x ∈ ps, x <+: s ∨ s <+: x := overlap_test hs hp s
  rw [addOption_star]
  constructor
  · intro hx
    have hb : (nextTest ps s || prevTest ps s) = true := by
      rw [Bool.or_eq_true]; exact ht.2 hx
    rw [if_pos hb]
    have hlen : (if ps.lowerBound s = 0 then ps.lowerBound s else ps.lowerBound s - 1) < ps.length := by
      have := lowerBound_le ps s
      obtain ⟨x, hm, _⟩ := hx
      have hne : 0 < ps.length := List.length_pos_of_mem hm
      split <;> omega
    refine ⟨ps[if ps.lowerBound s = 0 then ps.lowerBound s else ps.lowerBound s - 1], List.getElem_mem _, ?_, ?_⟩
    · rw [List.getElem?_eq_getElem hlen]; rfl
    · intro h1
      obtain ⟨x, hm, hov⟩ := hx
      have : ∀ i (h : i < ps.length), ps[i] = x := by
        intro i h
        obtain ⟨j, hj, rfl⟩ := List.getElem_of_mem hm
        have : i = j := by omega
        subst this; rfl
      rw [this]; exact hov
  · intro hx
    have hb : ¬ (nextTest ps s || prevTest ps s) = true := by
      rw [Bool.or_eq_true]; intro h
      obtain ⟨x, hm, hov⟩ := ht.1 h
      exact hx x hm hov
    rw [if_neg hb]

theorem prefixFree_insert {ps : SSet} (hp : PrefixFree ps) (s : Str) (h : ∀ x ∈ ps, ¬ (x <+: s ∨ s <+: x)) :
    PrefixFree (ps.insert s) := by
  intro x hx y hy hxy
  rw [SSet.mem_insert] at hx hy
  rcases hx with rfl | hx
  · rcases hy with rfl | hy
    · rfl
    · exact absurd (.inr hxy) (h y hy)
  · rcases hy with rfl | hy
    · exact absurd (.inl hxy) (h x hx)
    · exact hp x hx y hy hxy

/-- Names already processed (`done`) and to be processed (`ns`), the stems of the former being `ps`. -/
theorem addOptions_spec (ns done : List Str) (ps : SSet) (hs : ps.Sorted) (hp : PrefixFree ps)
    (hne : ∀ n ∈ ns, n ≠ []) (hnd : (done ++ ns).Nodup) (hst : ∀ x, x ∈ ps ↔ x ++ ['*'] ∈ done) :
    (∃ ps', addOptions ps ns = .ok ps' ∧ SSet.Sorted ps' ∧ PrefixFree ps' ∧ ∀ x, x ∈ ps' ↔ x ++ ['*'] ∈ done ++ ns) ∨
    (∃ s y x, addOptions ps ns = .error (.error (overlapMsg (s ++ ['*']) y)) ∧
      s ++ ['*'] ∈ ns ∧ y ++ ['*'] ∈ done ++ ns ∧ x ++ ['*'] ∈ done ++ ns ∧ y ≠ s ∧ x ≠ s ∧ (x <+: s ∨ s <+: x)) := by
  induction ns generalizing done ps with
  | nil => exact .inl ⟨ps, rfl, hs, hp, by simpa using hst⟩
  | cons n ns ih =>
    rw [addOptions]
    have hnd' : (done ++ [n] ++ ns).Nodup := by simpa using hnd
    have hnotin : n ∉ done := by
      intro h
      rw [List.nodup_append] at hnd
      exact hnd.2.2 n h n (by simp) rfl
    by_cases hw : n.getLast? = some '*'
    · obtain ⟨s, rfl⟩ : ∃ s, n = s ++ ['*'] := by
        rw [List.getLast?_eq_some_iff] at hw; exact hw
      obtain ⟨a1, a2⟩ := addOption_wild hs hp s
      by_cases hov : ∃ x ∈ ps, x <+: s ∨ s <+: x
      · obtain ⟨y, hy, he, _⟩ := a1 hov
        obtain ⟨x, hx, hxo⟩ := hov
        right
        rw [he]
        refine ⟨s, y, x, rfl, by simp, by simp [(hst y).1 hy], by simp [(hst x).1 hx], ?_, ?_, hxo⟩
        · rintro rfl; exact hnotin ((hst y).1 hy)
        · rintro rfl; exact hnotin ((hst x).1 hx)
      · have hov' : ∀ x ∈ ps, ¬ (x <+: s ∨ s <+: x) := fun x hx h => hov ⟨x, hx, h⟩
        rw [a2 hov']
        have := ih (done ++ [s ++ ['*']]) (ps.insert s) (SSet.sorted_insert hs s) (prefixFree_insert hp s hov')
          (fun m hm => hne m (by simp [hm])) hnd' (by
            intro x; rw [SSet.mem_insert, hst]
            simp only [List.mem_append, List.mem_singleton, List.append_cancel_right_eq]
            exact Or.comm)
        rcases this with ⟨ps', h1, h2, h3, h4⟩ | ⟨s', y, x, h1, h2, h3, h4, h5⟩
        · exact .inl ⟨ps', h1, h2, h3, by simpa using h4⟩
        · exact .inr ⟨s', y, x, h1, by simp [h2], by simpa using h3, by simpa using h4, h5⟩
    · rw [addOption_plain ps n (hne n (by simp)) hw]
      have := ih (done ++ [n]) ps hs hp (fun m hm => hne m (by simp [hm])) hnd' (by
            intro x; rw [hst]
            have : x ++ ['*'] ≠ n := by rintro rfl; simp at hw
            simp [this])
      rcases this with ⟨ps', h1, h2, h3, h4⟩ | ⟨s', y, x, h1, h2, h3, h4, h5⟩
      · exact .inl ⟨ps', h1, h2, h3, by simpa using h4⟩
      · exact .inr ⟨s', y, x, h1, by simp [h2], by simpa using h3, by simpa using h4, h5⟩

theorem sorted_nodup {S : SSet} (h : S.Sorted) : S.Nodup :=
  List.Pairwise.imp (fun hab => strLt_ne hab) h

/-- A usable reader: `allowed_option` decides `Accepts`. -/
theorem reader_spec (desc : List OptionDesc) (au : Bool) (hne : ∀ d ∈ desc, d.firstLong ≠ []) :
    (∃ S it, allowedNames desc [] = .ok S ∧ ConfigIter.make S au = .ok it ∧ it.allowUnregistered = au ∧
        (∀ name, it.allowed name = true ↔ Accepts desc name) ∧ ¬ Overlap desc) ∨
    (∃ S s y x, allowedNames desc [] = .ok S ∧ ConfigIter.make S au = .error (.error (overlapMsg (s ++ ['*']) y)) ∧
        (∃ d ∈ desc, d.firstLong = s ++ ['*']) ∧ (∃ d ∈ desc, d.firstLong = y ++ ['*']) ∧
        (∃ d ∈ desc, d.firstLong = x ++ ['*']) ∧ y ≠ s ∧ x ≠ s ∧ (x <+: s ∨ s <+: x)) := by
  obtain ⟨S, h1, h2, h3⟩ := allowedNames_ok desc [] (by simp) hne
  simp only [List.not_mem_nil, false_or] at h3
  have hne' : ∀ n ∈ S, n ≠ [] := by
    intro n hn
    obtain ⟨d, hd, rfl⟩ := (h3 n).1 hn
    exact hne d hd
  rcases addOptions_spec S [] [] (by simp) (by intro x hx; cases hx) hne' (by simpa using sorted_nodup h2) (by simp)
    with ⟨ps, a1, a2, a3, a4⟩ | ⟨s, y, x, a1, a2, a3, a4, a5⟩
  · left
    refine ⟨S, { allowedOptions := S, allowedPrefixes := ps, allowUnregistered := au }, h1, ?_, rfl, ?_, ?_⟩
    · unfold ConfigIter.make; rw [a1]
    · intro name
      simp only [List.nil_append] at a4
      have ha : ({ allowedOptions := S, allowedPrefixes := ps, allowUnregistered := au } : ConfigIter).allowed name = true ↔
          name ∈ S ∨ ∃ x ∈ ps, x <+: name ∧ x ≠ name := by
        rw [← predecessor_test a2 a3 name]
        unfold ConfigIter.allowed
        simp only
        by_cases hm : SSet.has S name = true
        · rw [if_pos hm]; simp only [true_iff]; exact .inl ((SSet.has_iff _ _).1 hm)
        · rw [if_neg hm]
          rw [SSet.has_iff] at hm
          simp only [hm, false_or]
          exact Iff.rfl
      rw [ha]
      unfold Accepts
      constructor
      · rintro (h | ⟨x, hx, hp, hn⟩)
        · obtain ⟨d, hd, rfl⟩ := (h3 name).1 h
          refine ⟨d, hd, ?_⟩
          by_cases hw : d.firstLong.getLast? = some '*'
          · rw [List.getLast?_eq_some_iff] at hw
            obtain ⟨stem, hst⟩ := hw
            refine .inr ⟨stem, hst, ?_, ?_⟩
            · rw [hst]; exact List.prefix_append _ _
            · rw [hst]; simp
          · exact .inl ⟨rfl, hw⟩
        · obtain ⟨d, hd, he⟩ := (h3 _).1 ((a4 x).1 hx)
          exact ⟨d, hd, .inr ⟨x, he, hp, hn⟩⟩
      · rintro ⟨d, hd, (⟨h, _⟩ | ⟨stem, hst, hp, hn⟩)⟩
        · exact .inl ((h3 name).2 ⟨d, hd, h⟩)
        · exact .inr ⟨stem, (a4 stem).2 ((h3 _).2 ⟨d, hd, hst⟩), hp, hn⟩
    · rintro ⟨d1, hd1, d2, hd2, s1, s2, e1, e2, hne, hp⟩
      simp only [List.nil_append] at a4
      exact hne (a3 s1 ((a4 s1).2 ((h3 _).2 ⟨d1, hd1, e1⟩)) s2 ((a4 s2).2 ((h3 _).2 ⟨d2, hd2, e2⟩)) hp)
  · right
    simp only [List.nil_append] at a2 a3 a4
    refine ⟨S, s, y, x, h1, ?_, (h3 _).1 a2, (h3 _).1 a3, (h3 _).1 a4, a5⟩
    unfold ConfigIter.make; rw [a1]

/-! ### Scanning -/

/-- Reading lines, with the prefix reached at the end. -/
def ConfigIter.scan (it : ConfigIter) : Str → List Str → Except Fail (List Opt × Str)
  | pre, [] => .ok ([], pre)
  | pre, l :: ls =>
    match it.line pre (stripLine l) with
    | .error f => .error f
    | .ok .skip => it.scan pre ls
    | .ok (.section_ p) => it.scan p ls
    | .ok (.option o) =>
      match it.scan pre ls with
      | .error f => .error f
      | .ok (os, q) => .ok (o :: os, q)

theorem lines_eq_scan (it : ConfigIter) (pre : Str) (ls : List Str) :
    it.lines pre ls = match it.scan pre ls with | .error f => .error f | .ok r => .ok r.1 := by
  induction ls generalizing pre with
  | nil => rfl
  | cons l ls ih =>
    rw [ConfigIter.lines, ConfigIter.scan]
    cases it.line pre (stripLine l) with
    | error f => rfl
    | ok r =>
      cases r with
      | skip => exact ih pre
      | section_ p => exact ih p
      | option o =>
        simp only [ih pre]
        cases it.scan pre ls with
        | error f => rfl
        | ok r => rfl

theorem scan_append (it : ConfigIter) (pre : Str) (a b : List Str) :
    it.scan pre (a ++ b) =
      match it.scan pre a with
      | .error f => .error f
      | .ok (os, q) =>
        match it.scan q b with
        | .error f => .error f
        | .ok (os', q') => .ok (os ++ os', q') := by
  induction a generalizing pre with
  | nil =>
    simp only [List.nil_append, ConfigIter.scan]
    cases it.scan pre b with
    | error f => rfl
    | ok r => rfl
  | cons l a ih =>
    rw [List.cons_append, ConfigIter.scan, ConfigIter.scan]
    cases it.line pre (stripLine l) with
    | error f => rfl
    | ok r =>
      cases r with
      | skip => exact ih pre
      | section_ p => exact ih p
      | option o =>
        simp only [ih pre]
        cases it.scan pre a with
        | error f => rfl
        | ok r =>
          simp only
          cases it.scan r.2 b with
          | error f => rfl
          | ok r' => rfl

/-- The whole of `parse_config_file`, once a reader exists. -/
theorem parseConfigFile_eq (desc : List OptionDesc) (au : Bool) (S : SSet) (it : ConfigIter)
    (h1 : allowedNames desc [] = .ok S) (h2 : ConfigIter.make S au = .ok it) (text : Str) :
    parseConfigFile text desc au =
      match it.scan [] (getlines '\n' text) with
      | .error f => .error f
      | .ok r => .ok { desc, options := r.1 } := by
  unfold parseConfigFile
  simp only [h1, h2, lines_eq_scan]
  cases it.scan [] (getlines '\n' text) <;> rfl

/-- If the empty file can be read, there is a reader. -/
theorem reader_of_empty (desc : List OptionDesc) (au : Bool) (p : Parsed) (h : parseConfigFile [] desc au = .ok p) :
    ∃ S it, allowedNames desc [] = .ok S ∧ ConfigIter.make S au = .ok it ∧ it.allowUnregistered = au ∧
      (∀ name, it.allowed name = true ↔ Accepts desc name) := by
  by_cases hne : ∀ d ∈ desc, d.firstLong ≠ []
  · rcases reader_spec desc au hne with ⟨S, it, a, b, c, d, _⟩ | ⟨S, s, y, x, a, b, _⟩
    · exact ⟨S, it, a, b, c, d⟩
    · unfold parseConfigFile at h
      simp [a, b] at h
  · have : ∃ d ∈ desc, d.firstLong = [] := by
      apply Classical.byContradiction
      intro hc
      exact hne fun d hd he => hc ⟨d, hd, he⟩
    unfold parseConfigFile at h
    simp [allowedNames_error desc [] this] at h

/-! ### Single lines -/

theorem isWs_false_iff (c : Char) : isWs c = false ↔ c ≠ ' ' ∧ c ≠ '\t' ∧ c ≠ '\r' ∧ c ≠ '\n' := by
  simp [isWs, and_assoc]

theorem trimmed_iff (s : Str) : Trimmed s ↔
    (∀ c, s.head? = some c → isWs c = false) ∧ (∀ c, s.getLast? = some c → isWs c = false) := by
  unfold Trimmed
  simp only [isWs_false_iff]
  constructor
  · intro h; exact ⟨fun c hc => h c (.inl hc), fun c hc => h c (.inr hc)⟩
  · rintro ⟨h1, h2⟩ c (hc | hc)
    · exact h1 c hc
    · exact h2 c hc

theorem trimWs_of_trimmed {s : Str} (h : Trimmed s) : trimWs s = s :=
  have h' := (trimmed_iff s).1 h
  trimWs_id s h'.1 h'.2

theorem stripLine_item {n v : Str} (h : Representable n v) : stripLine (itemLine (n, v)) = itemLine (n, v) := by
  unfold itemLine
  rw [stripLine_id]
  · apply trimWs_id
    · intro c hc
      cases n with
      | nil => simp at hc; subst hc; decide
      | cons x n =>
        simp at hc
        exact ((trimmed_iff _).1 h.nameTrim).1 c (by simp [hc])
    · intro c hc
      cases v with
      | nil => simp at hc; subst hc; decide
      | cons x v =>
        rw [List.getLast?_append] at hc
        simp only [List.getLast?_cons_cons] at hc
        have : (x :: v).getLast? = some c := by
          cases hh : (x :: v).getLast? with
          | none => simp at hh
          | some d => rw [hh] at hc; simpa using hc
        exact ((trimmed_iff _).1 h.valueTrim).2 c this
  · simp [h.nameHash, h.valueHash]

theorem line_item (it : ConfigIter) (pre : Str) {n v : Str} (h : Representable n v) :
    it.line pre (stripLine (itemLine (n, v))) =
      if it.allowed (pre ++ n) = false ∧ it.allowUnregistered = false then .error (errUnknown (pre ++ n))
      else .ok (.option { stringKey := pre ++ n, value := [v], unregistered := !it.allowed (pre ++ n)
                          originalTokens := [pre ++ n, v] }) := by
  rw [stripLine_item h]
  unfold ConfigIter.line
  have h0 : itemLine (n, v) ≠ [] := by simp [itemLine]
  have h1 : ¬ ((itemLine (n, v)).head? = some '[' ∧ (itemLine (n, v)).getLast? = some ']') := by
    rintro ⟨a, b⟩
    apply h.notBracketed
    unfold itemLine at a b
    constructor
    · cases n with
      | nil => simp at a
      | cons x n => simpa using a
    · cases v with
      | nil => simp at b
      | cons x v =>
        rw [List.getLast?_append] at b
        simp only [List.getLast?_cons_cons] at b
        cases hh : (x :: v).getLast? with
        | none => simp at hh
        | some d => rw [hh] at b; simpa using b
  rw [if_neg h0, if_neg h1]
  have h2 : findChar (itemLine (n, v)) '=' = some n.length := findChar_append h.nameEq
  have h3 : (itemLine (n, v)).take n.length = n := by simp [itemLine]
  have h4 : (itemLine (n, v)).drop (n.length + 1) = v := by simp [itemLine]
  simp only [h2, h3, h4, trimWs_of_trimmed h.nameTrim, trimWs_of_trimmed h.valueTrim]
  cases it.allowed (pre ++ n) <;> cases it.allowUnregistered <;> rfl

theorem line_header (it : ConfigIter) (pre : Str) {s : Str} (h : SectionName s) :
    it.line pre (stripLine (headerLine s)) = .ok (.section_ (sectionPrefix s)) := by
  have hst : stripLine (headerLine s) = headerLine s := by
    unfold headerLine
    rw [stripLine_id _ (by simp [h.hash])]
    apply trimWs_id
    · intro c hc; simp at hc; subst hc; decide
    · intro c hc
      rw [List.getLast?_concat] at hc
      injection hc with hc; subst hc; decide
  rw [hst]
  unfold ConfigIter.line
  have h0 : headerLine s ≠ [] := by simp [headerLine]
  have h1 : (headerLine s).head? = some '[' ∧ (headerLine s).getLast? = some ']' := by
    unfold headerLine
    exact ⟨rfl, List.getLast?_concat ..⟩
  rw [if_neg h0, if_pos h1]
  have h2 : substr (headerLine s) 1 ((headerLine s).length - 2) = s := by
    simp [substr, headerLine]
  simp only [h2, sectionPrefix]
  cases hl : s.getLast? with
  | none => rw [List.getLast?_eq_none_iff] at hl; exact absurd hl h.nonempty
  | some c =>
    by_cases hc : c = '.'
    · subst hc; simp
    · split
      · rename_i h; cases h
      · rename_i h; injection h with h; exact absurd h hc
      · rename_i h; injection h with h; subst h; simp [hc]

end PO
