import Verif.Lemmas.Str
import Verif.Spec.Lookup
namespace PO
open Spec

theorem fold_eq (b : Bool) (s : Str) : (if b then toLower s else s) = fold b s := rfl

theorem fold_eq_nil (b : Bool) (s : Str) : fold b s = [] ↔ s = [] := by
  cases b <;> simp [fold]

/-- One long name: exact. -/
def longExact (opt : Str) (li : Bool) (n : Str) : Prop := n ≠ [] ∧ fold li n = opt
/-- One long name: approximate. -/
def longApx (opt : Str) (ap li : Bool) (n : Str) : Prop :=
  n ≠ [] ∧ ((ap = true ∧ opt <+: fold li n) ∨ ∃ stem, fold li n = stem ++ ['*'] ∧ stem <+: opt)

/-- `r` is decided by exactness `E` and approximation `A`, else it is `r0`. -/
def Decided (E A : Prop) (r0 r : MatchResult) : Prop :=
  (E ∧ r = .fullMatch) ∨ (¬ E ∧ A ∧ r = .approximateMatch) ∨ (¬ E ∧ ¬ A ∧ r = r0)

theorem substr_zero_pred (l : Str) : substr l 0 (l.length - 1) = l.dropLast := by
  simp [substr, List.dropLast_eq_take]

theorem star_iff (l opt : Str) :
    (l.getLast? = some '*' ∧ findSub opt (substr l 0 (l.length - 1)) = some 0) ↔
      ∃ stem, l = stem ++ ['*'] ∧ stem <+: opt := by
  rw [substr_zero_pred, findSub_eq_zero]
  constructor
  · rintro ⟨h, hp⟩
    refine ⟨l.dropLast, ?_, hp⟩
    obtain ⟨ys, rfl⟩ := List.getLast?_eq_some_iff.1 h
    simp
  · rintro ⟨stem, rfl, hp⟩
    simpa using hp

theorem matchLongs_spec (opt : Str) (ap li : Bool) (ns : List Str) (r : MatchResult)
    (hr : r ≠ .fullMatch) :
    Decided (∃ n ∈ ns, longExact opt li n) (∃ n ∈ ns, longApx opt ap li n) r
      (OptionDesc.matchLongs opt ap li ns r) := by
  induction ns generalizing r with
  | nil => simp [OptionDesc.matchLongs, Decided]
  | cons n ns ih =>
    unfold OptionDesc.matchLongs
    simp only [fold_eq]
    by_cases h0 : n = []
    · subst h0
      have : fold li ([] : Str) = [] := (fold_eq_nil _ _).2 rfl
      simp only [this, if_true]
      simpa [longExact, longApx] using ih r hr
    · have hf : fold li n ≠ [] := fun h => h0 ((fold_eq_nil _ _).1 h)
      simp only [hf, if_false]
      by_cases he : fold li n = opt
      · simp [he, longExact, h0, Decided]
      · have hne : ¬ longExact opt li n := fun h => he h.2
        simp only [he, if_false]
        have key : ∀ r1 : MatchResult, r1 ≠ .fullMatch →
            (longApx opt ap li n → r1 = .approximateMatch) → (¬ longApx opt ap li n → r1 = r) →
            Decided (∃ m ∈ n :: ns, longExact opt li m) (∃ m ∈ n :: ns, longApx opt ap li m) r
              (OptionDesc.matchLongs opt ap li ns r1) := by
          intro r1 hr1 h1 h2
          have := ih r1 hr1
          simp only [Decided, List.mem_cons, exists_eq_or_imp, hne, false_or] at this ⊢
          by_cases hx : longApx opt ap li n
          · have := h1 hx; grind
          · have := h2 hx; grind
        have hstar := star_iff (fold li n) opt
        by_cases hpre : ap = true ∧ findSub (fold li n) opt = some 0
        · simp only [hpre, if_true]
          have hx : longApx opt ap li n := ⟨h0, .inl ⟨hpre.1, (findSub_eq_zero _ _).1 hpre.2⟩⟩
          have := key .approximateMatch (by simp) (fun _ => rfl) (fun h => absurd hx h)
          rw [hpre.1] at this
          exact this
        · have hno : ¬ (ap = true ∧ opt <+: fold li n) := by
            rw [findSub_eq_zero] at hpre; exact hpre
          have hx : longApx opt ap li n ↔ ∃ stem, fold li n = stem ++ ['*'] ∧ stem <+: opt := by
            simp [longApx, h0, hno]
          have hgoal := key (if r = MatchResult.noMatch ∧ (fold li n).getLast? = some '*' then
            if findSub opt (substr (fold li n) 0 ((fold li n).length - 1)) = some 0 then
              .approximateMatch else r else r) ?_ ?_ ?_
          · cases ap with
            | false => exact hgoal
            | true =>
              have : findSub (fold li n) opt ≠ some 0 := fun h => hpre ⟨rfl, h⟩
              simp only [this, if_true, if_false]
              exact hgoal
          · split
            · split
              · simp
              · exact hr
            · exact hr
          · intro h
            have := hstar.2 (hx.1 h)
            cases r with
            | fullMatch => exact absurd rfl hr
            | noMatch => simp [this]
            | approximateMatch => simp
          · intro h
            have h' := fun hh => h (hx.2 (hstar.1 hh))
            split
            · rename_i h1
              rw [if_neg fun h2 => h' ⟨h1.2, h2⟩]
            · rfl

theorem match_spec (d : OptionDesc) (name : Str) (ap li si : Bool) :
    d.match name ap li si =
      if Exact d name li si then .fullMatch
      else if Approximate d name ap li then .approximateMatch else .noMatch := by
  have hm := matchLongs_spec (fold li name) ap li d.longNames .noMatch (by simp)
  change (if OptionDesc.matchLongs (fold li name) ap li d.longNames MatchResult.noMatch = .fullMatch
    then OptionDesc.matchLongs (fold li name) ap li d.longNames MatchResult.noMatch
    else if fold si d.shortName = fold li name then .fullMatch
    else OptionDesc.matchLongs (fold li name) ap li d.longNames MatchResult.noMatch) = _
  generalize OptionDesc.matchLongs (fold li name) ap li d.longNames MatchResult.noMatch = r at hm ⊢
  have hE : Exact d name li si ↔ (∃ n ∈ d.longNames, longExact (fold li name) li n) ∨
      fold si d.shortName = fold li name := Iff.rfl
  have hA : Approximate d name ap li ↔ ∃ n ∈ d.longNames, longApx (fold li name) ap li n := Iff.rfl
  rw [← hA] at hm
  generalize hX : (∃ n ∈ d.longNames, longExact (fold li name) li n) = X at hm hE
  clear hX hA
  rcases hm with ⟨h1, h2⟩ | ⟨h1, h2, h3⟩ | ⟨h1, h2, h3⟩
  · subst h2; rw [if_pos rfl, if_pos (hE.2 (.inl h1))]
  · subst h3
    by_cases h : fold si d.shortName = fold li name
    · rw [if_neg (by simp), if_pos h, if_pos (hE.2 (.inr h))]
    · rw [if_neg (by simp), if_neg h, if_neg (fun hh => (hE.1 hh).elim h1 h), if_pos h2]
  · subst h3
    by_cases h : fold si d.shortName = fold li name
    · rw [if_neg (by simp), if_pos h, if_pos (hE.2 (.inr h))]
    · rw [if_neg (by simp), if_neg h, if_neg (fun hh => (hE.1 hh).elim h1 h), if_neg h2]

theorem match_full_iff (d : OptionDesc) (name : Str) (ap li si : Bool) :
    d.match name ap li si = .fullMatch ↔ Exact d name li si := by
  rw [match_spec]
  by_cases h : Exact d name li si
  · simp [h]
  · by_cases h' : Approximate d name ap li <;> simp [h, h']

theorem key_eq (d : OptionDesc) (name : Str) : d.key name = reportedKey d name := by
  unfold OptionDesc.key reportedKey
  cases d.longNames with
  | nil => rfl
  | cons n ns => simp [findChar_isSome]

theorem exacts_cons (d : OptionDesc) (ds : List OptionDesc) (name : Str) (li si : Bool) :
    exacts (d :: ds) name li si =
      if Exact d name li si then d :: exacts ds name li si else exacts ds name li si := by
  simp only [exacts, List.filter_cons, decide_eq_true_eq]

theorem approximates_cons (d : OptionDesc) (ds : List OptionDesc) (name : Str) (ap li si : Bool) :
    approximates (d :: ds) name ap li si =
      if ¬ Exact d name li si ∧ Approximate d name ap li then d :: approximates ds name ap li si
      else approximates ds name ap li si := by
  simp only [approximates, List.filter_cons, decide_eq_true_eq]

theorem findLoop_spec (name : Str) (ap li si : Bool) (opts : List OptionDesc)
    (found : Option OptionDesc) (full apx : List Str) :
    findLoop name ap li si opts found full apx =
      (((exacts opts name li si).getLast?).or
          (if full = [] then ((approximates opts name ap li si).getLast?).or found else found),
        full ++ (exacts opts name li si).map (reportedKey · name),
        apx ++ (approximates opts name ap li si).map (reportedKey · name)) := by
  induction opts generalizing found full apx with
  | nil => simp [findLoop, exacts, approximates]
  | cons d ds ih =>
    unfold findLoop
    rw [match_spec, exacts_cons, approximates_cons]
    generalize exacts ds name li si = E at ih ⊢
    generalize approximates ds name ap li si = A at ih ⊢
    by_cases hE : Exact d name li si
    · simp only [hE, if_true, ih, key_eq, not_true_eq_false, false_and, if_false]
      simp only [List.append_eq_nil_iff, List.cons_ne_nil, and_false, if_false, List.getLast?_cons,
        List.map_cons, List.append_assoc, List.singleton_append]
      cases E.getLast? <;> rfl
    · by_cases hA : Approximate d name ap li
      · simp only [hE, if_false, hA, if_true, ih, key_eq, not_false_eq_true, true_and]
        simp only [List.getLast?_cons, List.map_cons, List.append_assoc, List.singleton_append]
        by_cases hf : full = []
        · simp only [hf, if_true]
          cases A.getLast? <;> rfl
        · simp only [hf, if_false]
      · simp only [hE, if_false, hA, ih, and_false]

end PO
