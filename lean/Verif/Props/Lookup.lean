import Verif.Lemmas.Lookup
import Verif.Tests.Util
/-
C01-C05: option lookup and name declaration.
-/
namespace PO
open Spec

/-- **C01.** The outcome of a lookup, from the lists of exact and of merely approximate matches. -/
theorem C01_lookup_decision (opts : List OptionDesc) (name : Str) (ap li si : Bool) :
    findNothrow opts name ap li si =
      match exacts opts name li si, approximates opts name ap li si with
      | [d], _ => .ok (some d)
      | d :: d' :: ds, _ => .error (about (.ambiguousOption ((d :: d' :: ds).map (reportedKey · name))) [] [] 0)
      | [], [] => .ok none
      | [], [d] => .ok (some d)
      | [], d :: d' :: ds => .error (about (.ambiguousOption ((d :: d' :: ds).map (reportedKey · name))) [] [] 0) := by
  unfold findNothrow
  rw [findLoop_spec]
  rcases exacts opts name li si with _ | ⟨d, _ | ⟨d', ds⟩⟩
  · rcases approximates opts name ap li si with _ | ⟨a, _ | ⟨a', as⟩⟩ <;> simp
    rfl
  · simp
  · simp
    rfl

/-- The throwing variant `find` differs only in turning "nothing found" into an exception. -/
theorem C01_find_throws (opts : List OptionDesc) (name : Str) (ap li si : Bool) :
    findOrThrow opts name ap li si =
      match findNothrow opts name ap li si with
      | .ok (some d) => .ok d
      | .ok none => .error (about .unknownOption [] [] 0)
      | .error f => .error f := by
  unfold findOrThrow
  rcases findNothrow opts name ap li si with f | _ | d <;> rfl

/-- In case-sensitive mode an exact match is literal equality with one of the declared names. -/
theorem C01_exact_case_sensitive (d : OptionDesc) (name : Str) (hn : name ≠ []) :
    Exact d name false false ↔ name ∈ d.longNames ∨ name = d.shortName := by
  simp only [Exact, fold, Bool.false_eq_true, if_false]
  constructor
  · rintro (⟨n, h, -, rfl⟩ | h)
    · exact .inl h
    · exact .inr h.symm
  · rintro (h | h)
    · exact .inl ⟨name, h, hn, rfl⟩
    · exact .inr h.symm

section
open Test
def exDescs : List OptionDesc := [od "all" unt, od "all-files" unt, od "all-dirs" unt, od "ambi,x" unt, od "amber,x" unt]
-- exact beats approximate; unique approximation; both kinds of ambiguity; nothing
example : (exacts exDescs (L "all") false false).length = 1 ∧
    (approximates exDescs (L "all") true false false).length = 2 := by decide
example : (findNothrow exDescs (L "all-f") true false false).toOption.map (·.map (·.longNames)) =
    some (some [L "all-files"]) := by decide
example : findNothrow exDescs (L "-x") true false false = .error (errAmbiguous [L "ambi", L "amber"]) := by
  rfl
end

/-! ### C02 -/

/-- **C02.** Declaration order is irrelevant: same successful results, and the same failures up to
the order of the listed alternatives. -/
theorem C02_order_irrelevant (opts opts' : List OptionDesc) (hp : opts.Perm opts') (name : Str)
    (ap li si : Bool) :
    (∀ r, findNothrow opts name ap li si = .ok r ↔ findNothrow opts' name ap li si = .ok r) ∧
    (∀ f, findNothrow opts name ap li si = .error f →
      ∃ alts alts', alts.Perm alts' ∧ f = about (.ambiguousOption alts) [] [] 0 ∧
        findNothrow opts' name ap li si = .error (about (.ambiguousOption alts') [] [] 0)) := by
  have hE : (exacts opts name li si).Perm (exacts opts' name li si) := hp.filter _
  have hA : (approximates opts name ap li si).Perm (approximates opts' name ap li si) := hp.filter _
  rw [C01_lookup_decision, C01_lookup_decision]
  generalize exacts opts name li si = E at hE ⊢
  generalize exacts opts' name li si = E' at hE ⊢
  generalize approximates opts name ap li si = A at hA ⊢
  generalize approximates opts' name ap li si = A' at hA ⊢
  rcases E with _ | ⟨d, _ | ⟨d', ds⟩⟩
  · rw [List.nil_perm] at hE; subst hE
    rcases A with _ | ⟨a, _ | ⟨a', as⟩⟩
    · rw [List.nil_perm] at hA; subst hA; simp
    · rw [List.singleton_perm] at hA; subst hA; simp
    · rcases A' with _ | ⟨b, _ | ⟨b', bs⟩⟩
      · exact absurd hA.length_eq (by simp)
      · exact absurd hA.length_eq (by simp)
      · refine ⟨by simp, ?_⟩
        rintro f h
        simp only [Except.error.injEq] at h
        exact ⟨_, _, hA.map (reportedKey · name), h.symm, rfl⟩
  · rw [List.singleton_perm] at hE; subst hE; simp
  · rcases E' with _ | ⟨b, _ | ⟨b', bs⟩⟩
    · exact absurd hE.length_eq (by simp)
    · exact absurd hE.length_eq (by simp)
    · refine ⟨by simp, ?_⟩
      rintro f h
      simp only [Except.error.injEq] at h
      exact ⟨_, _, hE.map (reportedKey · name), h.symm, rfl⟩

example : ([Test.od "a,x" Test.unt, Test.od "b,x" Test.unt]).Perm [Test.od "b,x" Test.unt, Test.od "a,x" Test.unt] ∧
    findNothrow [Test.od "a,x" Test.unt, Test.od "b,x" Test.unt] (Test.L "-x") false false false =
      .error (errAmbiguous [Test.L "a", Test.L "b"]) :=
  ⟨List.Perm.swap _ _ _, rfl⟩

/-! ### C03 -/

/-- Two names differ only in letter case. -/
def SameUpToCase (a b : Str) : Prop := a.map Char.toLower = b.map Char.toLower

/-- **C03.** With case-insensitive matching of long and short names, spellings that differ only in
letter case match every option with the same strength ... -/
theorem C03_case_insensitive_match (d : OptionDesc) (a b : Str) (ap : Bool) (h : SameUpToCase a b) :
    d.match a ap true true = d.match b ap true true := by
  have hE : Exact d a true true ↔ Exact d b true true := by
    have h' : fold true a = fold true b := h
    simp only [Exact, h']
  have hA : Approximate d a ap true ↔ Approximate d b ap true := by
    have h' : fold true a = fold true b := h
    simp only [Approximate, h']
  rw [match_spec, match_spec]
  by_cases h1 : Exact d a true true
  · rw [if_pos h1, if_pos (hE.1 h1)]
  · rw [if_neg h1, if_neg fun h => h1 (hE.2 h)]
    by_cases h2 : Approximate d a ap true
    · rw [if_pos h2, if_pos (hA.1 h2)]
    · rw [if_neg h2, if_neg fun h => h2 (hA.2 h)]

/-- ... and therefore the lookup finds the same option, is ambiguous in the same cases, and fails in
the same cases. -/
theorem C03_case_insensitive_lookup (opts : List OptionDesc) (a b : Str) (ap : Bool)
    (h : SameUpToCase a b) :
    (∀ r, findNothrow opts a ap true true = .ok r ↔ findNothrow opts b ap true true = .ok r) := by
  have h' : fold true a = fold true b := h
  have hE : exacts opts a true true = exacts opts b true true := by
    unfold exacts; congr 1; funext d
    simp only [Exact, h']
  have hA : approximates opts a ap true true = approximates opts b ap true true := by
    unfold approximates; congr 1; funext d
    rw [decide_eq_decide]
    simp only [Exact, Approximate, h']
  intro r
  rw [C01_lookup_decision, C01_lookup_decision, hE, hA]
  rcases exacts opts b true true with _ | ⟨d, _ | ⟨d', ds⟩⟩
  · rcases approximates opts b ap true true with _ | ⟨a, _ | ⟨a', as⟩⟩ <;> simp
  · simp
  · simp

/-- The declared spelling does not matter either. -/
theorem C03_declared_case (d d' : OptionDesc) (name : Str) (ap : Bool)
    (hl : d.longNames.map (·.map Char.toLower) = d'.longNames.map (·.map Char.toLower))
    (hs : SameUpToCase d.shortName d'.shortName) :
    d.match name ap true true = d'.match name ap true true := by
  have aux : ∀ (P : Str → Prop) (l : List Str),
      (∃ n ∈ l, n ≠ [] ∧ P (fold true n)) ↔ ∃ m ∈ l.map (·.map Char.toLower), m ≠ [] ∧ P m := by
    intro P l
    constructor
    · rintro ⟨n, hn, h0, hP⟩
      exact ⟨_, List.mem_map_of_mem hn, by simpa using h0, hP⟩
    · rintro ⟨m, hm, h0, hP⟩
      obtain ⟨n, hn, rfl⟩ := List.mem_map.1 hm
      exact ⟨n, hn, by simpa using h0, hP⟩
  have hE : Exact d name true true ↔ Exact d' name true true := by
    have h' : fold true d.shortName = fold true d'.shortName := hs
    unfold Exact
    rw [aux (fun x => x = fold true name), aux (fun x => x = fold true name), hl, h']
  have hA : Approximate d name ap true ↔ Approximate d' name ap true := by
    unfold Approximate
    rw [aux (fun x => (ap = true ∧ fold true name <+: x) ∨ ∃ stem, x = stem ++ ['*'] ∧ stem <+: fold true name),
      aux (fun x => (ap = true ∧ fold true name <+: x) ∨ ∃ stem, x = stem ++ ['*'] ∧ stem <+: fold true name), hl]
  rw [match_spec, match_spec]
  by_cases h1 : Exact d name true true
  · rw [if_pos h1, if_pos (hE.1 h1)]
  · rw [if_neg h1, if_neg fun h => h1 (hE.2 h)]
    by_cases h2 : Approximate d name ap true
    · rw [if_pos h2, if_pos (hA.1 h2)]
    · rw [if_neg h2, if_neg fun h => h2 (hA.2 h)]

example : SameUpToCase (Test.L "FoO") (Test.L "fOo") := by unfold SameUpToCase; decide
example : (Test.od "Foo,b" Test.unt).match (Test.L "fOO") false true true = .fullMatch := by decide

/-! ### C04 -/

/-- The full claim: switching on case-insensitivity for short names keeps every match. -/
def C04_claim : Prop := ∀ (d : OptionDesc) (name : Str) (ap li : Bool),
  d.match name ap li false ≠ .noMatch → d.match name ap li true ≠ .noMatch

/-- **C04 is false in the code.** `-F` declared as `foo,F` is found case-sensitively but not when
only short names are matched case-insensitively: the declared name is folded, the typed one is not. -/
theorem C04_negation : ¬ C04_claim := by
  intro h
  have := h (Test.od "foo,F" Test.unt) (Test.L "-F") false false (by decide)
  revert this; decide

/-- **C04, part that holds:** if long names are matched case-insensitively too, or the declared short
name has no upper-case letter, no match is lost. Missing: upper-case short names with
case-insensitivity for short names only (see `C04_negation`). -/
theorem C04_short_icase_partial (d : OptionDesc) (name : Str) (ap li : Bool)
    (h : li = true ∨ d.shortName.map Char.toLower = d.shortName)
    (hm : d.match name ap li false ≠ .noMatch) :
    d.match name ap li true ≠ .noMatch ∧
      (d.match name ap li false = .fullMatch → d.match name ap li true = .fullMatch) := by
  have himp : Exact d name li false → Exact d name li true := by
      intro hE
      rcases hE with h1 | h1
      · exact .inl h1
      · refine .inr ?_
        simp only [fold, Bool.false_eq_true, if_false, if_true] at h1 ⊢
        rcases h with rfl | h
        · simp only [if_true] at h1 ⊢
          rw [h1]
          exact toLower_toLower name
        · rw [h]; exact h1
  rw [match_spec] at hm
  rw [match_spec, match_spec]
  by_cases hE : Exact d name li false
  · simp [himp hE]
  · rw [if_neg hE] at hm ⊢
    by_cases hA : Approximate d name ap li
    · rw [if_pos hA]
      by_cases hE' : Exact d name li true <;> simp [hE']
    · simp [hA] at hm

example : (Test.od "foo,F" Test.unt).match (Test.L "-F") false true false = .noMatch ∧
    (Test.od "foo,f" Test.unt).match (Test.L "-F") false true false = .fullMatch := by decide

/-! ### C05 -/

/-- The text of a name specification: the names separated by commas. -/
def commaList : List Str → Str
  | [] => []
  | [n] => n
  | n :: ns => n ++ ',' :: commaList ns

theorem getlinesAux_nosep (sep : Char) (n cur : Str) (h : sep ∉ n) :
    getlinesAux sep n cur = if cur ++ n = [] then [] else [cur ++ n] := by
  induction n generalizing cur with
  | nil => simp [getlinesAux]
  | cons c cs ih =>
    have hc : c ≠ sep := fun he => h (by simp [he])
    simp only [getlinesAux, hc, if_false]
    rw [ih _ fun hm => h (by simp [hm])]
    simp

theorem getlinesAux_sep (sep : Char) (n cur rest : Str) (h : sep ∉ n) :
    getlinesAux sep (n ++ sep :: rest) cur = (cur ++ n) :: getlinesAux sep rest [] := by
  induction n generalizing cur with
  | nil => simp [getlinesAux]
  | cons c cs ih =>
    have hc : c ≠ sep := fun he => h (by simp [he])
    simp only [List.cons_append, getlinesAux, hc, if_false]
    rw [ih _ fun hm => h (by simp [hm])]
    simp

theorem getlines_commaList (ns : List Str) (h0 : ns ≠ []) (hns : ∀ n ∈ ns, ',' ∉ n)
    (hl : ns.getLast? ≠ some []) : getlines ',' (commaList ns) = ns := by
  unfold getlines
  induction ns with
  | nil => exact absurd rfl h0
  | cons n ns ih =>
    cases ns with
    | nil =>
      simp only [commaList]
      rw [getlinesAux_nosep _ _ _ (hns n (by simp))]
      have : n ≠ [] := fun h => hl (by simp [h])
      simp [this]
    | cons m ms =>
      simp only [commaList]
      rw [getlinesAux_sep _ _ _ _ (hns n (by simp))]
      rw [ih (by simp) (fun k hk => hns k (by simp [hk])) (by simpa using hl)]
      rfl

/-- **C05, with a short name.** Declaring `n1,...,nk,c` makes the option known under exactly the long
names `n1 ... nk` and the short name `-c`. (`k = 1` with `n1` empty is the specification `,c`: no long
name.) -/
theorem C05_names_with_short (ns : List Str) (c : Char) (sem : ValueSemantic) (descr : Str)
    (h0 : ns ≠ []) (hns : ∀ n ∈ ns, ',' ∉ n) (hc : c ≠ ',') :
    OptionDesc.make (commaList (ns ++ [[c]])) sem descr =
      .ok { shortName := ['-', c], longNames := if ns = [[]] then [] else ns
            description := descr, semantic := sem } := by
  have hg : getlines ',' (commaList (ns ++ [[c]])) = ns ++ [[c]] :=
    getlines_commaList _ (by simp) (by
      intro n hn
      simp only [List.mem_append, List.mem_singleton] at hn
      rcases hn with h | rfl
      · exact hns n h
      · simpa using Ne.symm hc) (by simp)
  unfold OptionDesc.make OptionDesc.setNames
  simp only [hg]
  have hl : 0 < ns.length := List.length_pos_iff.2 h0
  simp [hl]

/-- **C05, without a short name.** If the last name is not a single character, or there is only one
name, the option has exactly the long names written and no short name. -/
theorem C05_names_without_short (ns : List Str) (last : Str) (sem : ValueSemantic) (descr : Str)
    (hns : ∀ n ∈ ns, ',' ∉ n) (hl : ',' ∉ last) (h0 : last ≠ [])
    (h1 : ns = [] ∨ last.length ≠ 1) :
    OptionDesc.make (commaList (ns ++ [last])) sem descr =
      .ok { shortName := [], longNames := ns ++ [last], description := descr, semantic := sem } := by
  have hg : getlines ',' (commaList (ns ++ [last])) = ns ++ [last] :=
    getlines_commaList _ (by simp) (by
      intro n hn
      simp only [List.mem_append, List.mem_singleton] at hn
      rcases hn with h | rfl
      · exact hns n h
      · exact hl) (by simpa using h0)
  unfold OptionDesc.make OptionDesc.setNames
  simp only [hg]
  rcases h1 with rfl | h1
  · simp
  · by_cases hn : ns = []
    · subst hn; simp
    · have hlen : 0 < ns.length := List.length_pos_iff.2 hn
      simp only [List.append_eq_nil_iff, List.cons_ne_nil, and_false, if_false, List.length_append,
        List.length_singleton, List.getLast?_append, List.getLast?_singleton, Option.some_or]
      rw [if_pos (by omega)]
      rcases last with _ | ⟨c, _ | ⟨c', cs⟩⟩
      · exact absurd rfl h0
      · simp at h1
      · rfl

/-- **C05, what the names mean.** An option declared as `n1,...,nk,c` is matched exactly (in
case-sensitive mode) by the names `n1 ... nk` and `-c`, and by no other non-empty name. -/
theorem C05_known_under (ns : List Str) (c : Char) (sem : ValueSemantic) (descr name : Str)
    (h0 : ns ≠ []) (hns : ∀ n ∈ ns, ',' ∉ n) (hc : c ≠ ',') (hname : name ≠ []) (ap : Bool) :
    ∃ d, OptionDesc.make (commaList (ns ++ [[c]])) sem descr = .ok d ∧
      (d.match name ap false false = .fullMatch ↔ name ∈ ns ∨ name = ['-', c]) := by
  refine ⟨_, C05_names_with_short ns c sem descr h0 hns hc, ?_⟩
  rw [match_full_iff]
  have := C01_exact_case_sensitive
    { shortName := ['-', c], longNames := if ns = [[]] then [] else ns
      description := descr, semantic := sem } name hname
  have h2 : (name ∈ if ns = [[]] then [] else ns) ↔ name ∈ ns := by
    split
    · rename_i h; simp [h, hname]
    · rfl
  simp only [h2] at this
  rw [← this]

example : commaList [Test.L "output", Test.L "out", Test.L "o"] = Test.L "output,out,o" := by decide
example : (OptionDesc.make (Test.L "output,out,o") Test.unt).toOption.map (fun d => (d.shortName, d.longNames)) =
    some (Test.L "-o", [Test.L "output", Test.L "out"]) := by decide
example : (OptionDesc.make (Test.L ",o") Test.unt).toOption.map (fun d => (d.shortName, d.longNames)) =
    some (Test.L "-o", []) := by decide

end PO
