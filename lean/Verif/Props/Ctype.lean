import Verif.Model.Ctype
import Verif.Spec.Ctype
import Verif.Lemmas.Str
/-
C124: which strings make the library call a C character function outside its domain.
-/
namespace PO
open Spec

namespace Ctype

theorem tolower_some {signed : Bool} {c l : Char} (h : tolower signed c = some l) : l = c.toLower := by
  unfold tolower at h
  split at h
  · cases h; rfl
  · cases h

theorem tolower_none {signed : Bool} {c : Char} (hb : c.toNat ≤ 255) :
    tolower signed c = none ↔ signed = true ∧ 128 ≤ c.toNat ∧ c.toNat ≤ 254 := by
  unfold tolower domain charArg
  cases signed
  · simp; omega
  · by_cases h : 128 ≤ c.toNat
    · simp [h]; omega
    · simp [h]; omega

theorem lower_some {signed : Bool} {s l : Str} (h : lower signed s = some l) : l = toLower s := by
  induction s generalizing l with
  | nil => cases h; rfl
  | cons c cs ih =>
    simp only [lower, Option.bind_eq_bind, Option.bind_eq_some_iff, Option.some.injEq] at h
    obtain ⟨a, ha, b, hb, rfl⟩ := h
    rw [tolower_some ha, ih hb]; rfl

theorem lower_none {signed : Bool} {s : Str} (hb : Bytes s) :
    lower signed s = none ↔ signed = true ∧ Stray s := by
  induction s with
  | nil => simp [lower, Stray]
  | cons c cs ih =>
    have ih' := ih (fun x hx => hb x (List.mem_cons_of_mem _ hx))
    have hc := tolower_none (signed := signed) (hb c List.mem_cons_self)
    have e : Stray (c :: cs) ↔ (128 ≤ c.toNat ∧ c.toNat ≤ 254) ∨ Stray cs := by simp [Stray]
    rw [e]
    simp only [lower, Option.bind_eq_bind]
    cases h1 : tolower signed c with
    | none =>
      have := hc.1 h1
      simp [this]
    | some a =>
      have n1 : ¬ (signed = true ∧ 128 ≤ c.toNat ∧ c.toNat ≤ 254) := fun h => by rw [hc.2 h] at h1; cases h1
      cases h2 : lower signed cs with
      | none =>
        have := ih'.1 h2
        simp [this]
      | some b =>
        have n2 : ¬ (signed = true ∧ Stray cs) := fun h => by rw [ih'.2 h] at h2; cases h2
        simp only [Option.bind_some, reduceCtorEq, false_iff]
        rintro ⟨hs, h | h⟩
        · exact n1 ⟨hs, h⟩
        · exact n2 ⟨hs, h⟩

theorem lowerIf_some {signed ic : Bool} {s l : Str} (h : lowerIf signed ic s = some l) :
    l = if ic then toLower s else s := by
  cases ic
  · cases h; rfl
  · exact lower_some h

theorem lowerIf_none {signed ic : Bool} {s : Str} (hb : Bytes s) :
    lowerIf signed ic s = none ↔ ic = true ∧ signed = true ∧ Stray s := by
  cases ic
  · simp [lowerIf]
  · simp [lowerIf, lower_none hb]

theorem matchLongs_some {signed approx li : Bool} {o : Str} {ns : List Str} {r x : MatchResult}
    (h : matchLongs signed o approx li ns r = some x) : x = OptionDesc.matchLongs o approx li ns r := by
  induction ns generalizing r with
  | nil => cases h; rfl
  | cons n ns ih =>
    simp only [matchLongs, Option.bind_eq_bind, Option.bind_eq_some_iff] at h
    obtain ⟨name, hn, h⟩ := h
    have hn := lowerIf_some hn
    unfold OptionDesc.matchLongs
    dsimp only
    rw [← hn]
    by_cases h0 : name = []
    · rw [if_pos h0] at h ⊢; exact ih h
    · rw [if_neg h0] at h ⊢
      by_cases h1 : name = o
      · rw [if_pos h1] at h ⊢; cases h; rfl
      · rw [if_neg h1] at h ⊢
        by_cases h2 : approx = true
        · rw [if_pos h2] at h ⊢
          by_cases h3 : findSub name o = some 0
          · rw [if_pos h3] at h ⊢; exact ih h
          · rw [if_neg h3] at h ⊢; exact ih h
        · rw [if_neg h2] at h ⊢; exact ih h

theorem asked_iff {li : Bool} {n option o name : Str} (ho : o = if li then toLower option else option)
    (hn : name = if li then toLower n else n) : Asked li n option ↔ name ≠ [] ∧ name = o := by
  subst ho hn
  cases li
  · simp [Asked]
  · simp [Asked, toLower]

theorem matchLongs_none {signed approx li : Bool} {o option : Str} {ns : List Str} {r : MatchResult}
    (hb : ∀ n ∈ ns, Bytes n) (ho : o = if li then toLower option else option) :
    matchLongs signed o approx li ns r = none ↔
      signed = true ∧ li = true ∧ ∃ pre n post, ns = pre ++ n :: post ∧ (∀ m ∈ pre, ¬ Asked li m option) ∧ Stray n := by
  induction ns generalizing r with
  | nil => simp [matchLongs]
  | cons n ns ih =>
    have ih := fun r => ih (r := r) (fun x hx => hb x (List.mem_cons_of_mem _ hx))
    have hn0 := lowerIf_none (signed := signed) (ic := li) (hb n List.mem_cons_self)
    have cons : ∀ (hna : ¬ Asked li n option) (hns : ¬ (li = true ∧ signed = true ∧ Stray n)),
        (signed = true ∧ li = true ∧ ∃ pre m post, n :: ns = pre ++ m :: post ∧
          (∀ m ∈ pre, ¬ Asked li m option) ∧ Stray m) ↔
        (signed = true ∧ li = true ∧ ∃ pre m post, ns = pre ++ m :: post ∧
          (∀ m ∈ pre, ¬ Asked li m option) ∧ Stray m) := by
      intro hna hns
      constructor
      · rintro ⟨hs, hl, pre, m, post, e, hp, hm⟩
        cases pre with
        | nil => cases e; exact absurd ⟨hl, hs, hm⟩ hns
        | cons a pre =>
          cases e
          exact ⟨hs, hl, pre, m, post, rfl, fun x hx => hp x (List.mem_cons_of_mem _ hx), hm⟩
      · rintro ⟨hs, hl, pre, m, post, e, hp, hm⟩
        refine ⟨hs, hl, n :: pre, m, post, by rw [e]; rfl, ?_, hm⟩
        intro x hx
        rcases List.mem_cons.1 hx with rfl | hx
        · exact hna
        · exact hp x hx
    simp only [matchLongs, Option.bind_eq_bind]
    cases hl : lowerIf signed li n with
    | none =>
      obtain ⟨h1, h2, h3⟩ := hn0.1 hl
      simp only [Option.bind_none, true_iff]
      exact ⟨h2, h1, [], n, ns, rfl, by simp, h3⟩
    | some name =>
      have hns : ¬ (li = true ∧ signed = true ∧ Stray n) := fun h => by rw [hn0.2 h] at hl; cases hl
      have ha := asked_iff (n := n) ho (lowerIf_some hl)
      simp only [Option.bind_some]
      by_cases h0 : name = []
      · rw [if_pos h0, ih, cons (fun h => (ha.1 h).1 h0) hns]
      · rw [if_neg h0]
        by_cases h1 : name = o
        · rw [if_pos h1]
          simp only [reduceCtorEq, false_iff]
          rintro ⟨hs, hl', pre, m, post, e, hp, hm⟩
          cases pre with
          | nil => cases e; exact hns ⟨hl', hs, hm⟩
          | cons a pre => cases e; exact hp n List.mem_cons_self (ha.2 ⟨h0, h1⟩)
        · have c := cons (fun h => h1 (ha.1 h).2) hns
          rw [if_neg h1]
          by_cases h2 : approx = true
          · rw [if_pos h2]
            by_cases h3 : findSub name o = some 0
            · rw [if_pos h3, ih, c]
            · rw [if_neg h3, ih, c]
          · rw [if_neg h2, ih, c]

theorem full_iff {approx li : Bool} {o option : Str} {ns : List Str} {r : MatchResult} (hr : r ≠ .fullMatch)
    (ho : o = if li then toLower option else option) :
    OptionDesc.matchLongs o approx li ns r = .fullMatch ↔ ∃ m ∈ ns, Asked li m option := by
  induction ns generalizing r with
  | nil => simp [OptionDesc.matchLongs, hr]
  | cons n ns ih =>
    have ha := asked_iff (n := n) ho rfl
    unfold OptionDesc.matchLongs
    dsimp only
    generalize hname : (if li = true then toLower n else n) = name at ha
    by_cases h0 : name = []
    · rw [if_pos h0, ih hr]
      have : ¬ Asked li n option := fun h => (ha.1 h).1 h0
      simp [this]
    · rw [if_neg h0]
      by_cases h1 : name = o
      · rw [if_pos h1]
        have : Asked li n option := ha.2 ⟨h0, h1⟩
        simp [this]
      · have hna : ¬ Asked li n option := fun h => h1 (ha.1 h).2
        have hr1 : (if r = .noMatch ∧ name.getLast? = some '*' then
            if findSub o (substr name 0 (name.length - 1)) = some 0 then .approximateMatch else r
            else r) ≠ MatchResult.fullMatch := by
          split
          · split
            · decide
            · exact hr
          · exact hr
        rw [if_neg h1]
        by_cases h2 : approx = true
        · rw [if_pos h2]
          by_cases h3 : findSub name o = some 0
          · rw [if_pos h3, ih (by decide)]; simp [hna]
          · rw [if_neg h3, ih hr1]; simp [hna]
        · rw [if_neg h2, ih hr1]; simp [hna]

theorem match_some {signed approx li si : Bool} {d : OptionDesc} {o : Str} {x : MatchResult}
    (h : «match» signed d o approx li si = some x) : x = d.match o approx li si := by
  simp only [«match», Option.bind_eq_bind, Option.bind_eq_some_iff] at h
  obtain ⟨l, hl, r, hr, h⟩ := h
  have hl := lowerIf_some hl
  have hr := matchLongs_some hr
  unfold OptionDesc.match
  dsimp only
  rw [← hl, ← hr]
  by_cases hf : r = .fullMatch
  · rw [if_pos hf] at h ⊢; cases h; rfl
  · rw [if_neg hf] at h ⊢
    simp only [Option.bind_eq_some_iff] at h
    obtain ⟨b, hb, h⟩ := h
    have hb := lowerIf_some hb
    cases h
    rw [← hb]

theorem match_none {signed approx li si : Bool} {d : OptionDesc} {o : Str} (ho : Bytes o)
    (hn : ∀ n ∈ d.longNames, Bytes n) (hs : Bytes d.shortName) :
    «match» signed d o approx li si = none ↔ signed = true ∧ Meets d o li si := by
  have h1 := lowerIf_none (signed := signed) (ic := li) ho
  have h3 := lowerIf_none (signed := signed) (ic := si) hs
  simp only [«match», Option.bind_eq_bind]
  cases hl : lowerIf signed li o with
  | none =>
    obtain ⟨a, b, c⟩ := h1.1 hl
    simp only [Option.bind_none, true_iff]
    exact ⟨b, .asked a c⟩
  | some l =>
    have hl' := lowerIf_some hl
    have n1 : ¬ (li = true ∧ signed = true ∧ Stray o) := fun h => by rw [h1.2 h] at hl; cases hl
    have h2 := matchLongs_none (signed := signed) (approx := approx) (r := .noMatch) hn hl'
    have hf := full_iff (approx := approx) (ns := d.longNames) (r := .noMatch) (by decide) hl'
    simp only [Option.bind_some]
    cases hm : matchLongs signed l approx li d.longNames .noMatch with
    | none =>
      obtain ⟨a, b, pre, n, post, e, hp, hx⟩ := h2.1 hm
      simp only [Option.bind_none, true_iff]
      exact ⟨a, .long b pre n post e hp hx⟩
    | some r =>
      have n2 := mt h2.2 (by rw [hm]; exact fun h => nomatch h)
      rw [← matchLongs_some hm] at hf
      simp only [Option.bind_some]
      by_cases hr : r = .fullMatch
      · rw [if_pos hr]
        simp only [reduceCtorEq, false_iff]
        rintro ⟨hsg, hmeet⟩
        cases hmeet with
        | asked a b => exact n1 ⟨a, hsg, b⟩
        | long a pre n post e hp hx => exact n2 ⟨hsg, a, pre, n, post, e, hp, hx⟩
        | short a hp hx =>
          obtain ⟨m, hm1, hm2⟩ := hf.1 hr
          exact hp m hm1 hm2
      · rw [if_neg hr]
        cases hb : lowerIf signed si d.shortName with
        | none =>
          obtain ⟨a, b, c⟩ := h3.1 hb
          simp only [Option.bind_none, true_iff]
          exact ⟨b, .short a (fun m h1 h2 => hr (hf.2 ⟨m, h1, h2⟩)) c⟩
        | some b =>
          simp only [Option.bind_some, reduceCtorEq, false_iff]
          rintro ⟨hsg, hmeet⟩
          cases hmeet with
          | asked a b => exact n1 ⟨a, hsg, b⟩
          | long a pre n post e hp hx => exact n2 ⟨hsg, a, pre, n, post, e, hp, hx⟩
          | short a hp hx =>
            rw [h3.2 ⟨a, hsg, hx⟩] at hb
            cases hb

theorem findLoop_some {signed approx li si : Bool} {o : Str} {ds : List OptionDesc} {found : Option OptionDesc}
    {full apx : List Str} {x} (h : findLoop signed o approx li si ds found full apx = some x) :
    x = PO.findLoop o approx li si ds found full apx := by
  induction ds generalizing found full apx with
  | nil => cases h; rfl
  | cons d ds ih =>
    simp only [findLoop, Option.bind_eq_bind, Option.bind_eq_some_iff] at h
    obtain ⟨r, hr, h⟩ := h
    have hr := match_some hr
    unfold PO.findLoop
    rw [← hr]
    cases r <;> exact ih h

theorem findLoop_none {signed approx li si : Bool} {o : Str} {ds : List OptionDesc} {found : Option OptionDesc}
    {full apx : List Str} : findLoop signed o approx li si ds found full apx = none ↔
      ∃ d ∈ ds, «match» signed d o approx li si = none := by
  induction ds generalizing found full apx with
  | nil => simp [findLoop]
  | cons d ds ih =>
    simp only [findLoop, Option.bind_eq_bind]
    cases hr : «match» signed d o approx li si with
    | none => simp [hr]
    | some r =>
      have e : (∃ x ∈ d :: ds, «match» signed x o approx li si = none) ↔
          ∃ x ∈ ds, «match» signed x o approx li si = none := by simp [hr]
      rw [e]
      simp only [Option.bind_some]
      cases r <;> exact ih

theorem wlower_some {s l : WStr} (h : wlower s = some l) : l = PO.wlower s := by
  induction s generalizing l with
  | nil => cases h; rfl
  | cons c cs ih =>
    simp only [wlower, Option.bind_eq_bind, Option.bind_eq_some_iff, Option.some.injEq] at h
    obtain ⟨a, ha, b, hb, rfl⟩ := h
    rw [ih hb]
    unfold wtolower at ha
    split at ha
    · cases ha; rfl
    · cases ha

theorem wlower_none {s : WStr} : wlower s = none ↔ ∃ n ∈ s, 255 < n := by
  induction s with
  | nil => simp [wlower]
  | cons c cs ih =>
    have hc : wtolower c = none ↔ 255 < c := by
      unfold wtolower domain
      simp
      omega
    simp only [wlower, Option.bind_eq_bind, List.mem_cons, exists_eq_or_imp]
    cases h1 : wtolower c with
    | none => simp [hc.1 h1]
    | some a =>
      have n1 : ¬ 255 < c := fun h => by rw [hc.2 h] at h1; cases h1
      cases h2 : wlower cs with
      | none => simpa using Or.inr (ih.1 h2)
      | some b =>
        have n2 : ¬ ∃ n ∈ cs, 255 < n := fun h => by rw [ih.2 h] at h2; cases h2
        simp only [Option.bind_some, reduceCtorEq, false_iff]
        rintro (h | h)
        · exact n1 h
        · exact n2 h

theorem isspace_eq (c : Char) : isspace c = some (isSpace c) := by
  unfold isspace domain
  rw [if_pos]
  have := Nat.mod_lt c.toNat (show 0 < 256 by decide)
  simp
  omega

theorem winLoop_eq (s : Str) (sk : Bool) (st : WinState) : winLoop s sk st = some (PO.winLoop s sk st) := by
  induction s generalizing sk st with
  | nil => rfl
  | cons c cs ih =>
    unfold winLoop PO.winLoop
    simp only [isspace_eq, ih, Option.bind_eq_bind, Option.bind_some, Option.map_some]
    cases sk
    · simp only [Bool.false_eq_true, if_false, Bool.false_and]
      repeat' split
      all_goals rfl
    · simp only [if_true, Bool.true_and]
      repeat' split
      all_goals rfl

theorem skipSpaces_eq (s : Str) : skipSpaces s = some (s.dropWhile isSpace) := by
  induction s with
  | nil => rfl
  | cons c cs ih =>
    simp only [skipSpaces, isspace_eq, Option.bind_eq_bind, Option.bind_some, ih, List.dropWhile_cons]
    split <;> rfl

end Ctype

/-- C124: where the lookup of an option is defined, it finds what the model says. -/
theorem C124_lookup (signed : Bool) (opts : List OptionDesc) (name : Str) (approx li si : Bool) {r}
    (h : Ctype.findNothrow signed opts name approx li si = some r) : r = findNothrow opts name approx li si := by
  simp only [Ctype.findNothrow, Option.bind_eq_bind, Option.bind_eq_some_iff] at h
  obtain ⟨x, hx, h⟩ := h
  have hx := Ctype.findLoop_some hx
  unfold findNothrow
  rw [← hx]
  cases h
  rfl

/-- C124: the lookup is undefined exactly where `char` is signed and, for some declared option, a byte from 0x80 to 0xfe
is met in what is to be compared without regard to case. -/
theorem C124_lookup_iff (signed : Bool) (opts : List OptionDesc) (name : Str) (approx li si : Bool) (hn : Bytes name)
    (hl : ∀ d ∈ opts, ∀ n ∈ d.longNames, Bytes n) (hs : ∀ d ∈ opts, Bytes d.shortName) :
    Ctype.findNothrow signed opts name approx li si = none ↔
      signed = true ∧ ∃ d ∈ opts, Meets d name li si := by
  have e : Ctype.findNothrow signed opts name approx li si = none ↔
      Ctype.findLoop signed name approx li si opts none [] [] = none := by
    simp only [Ctype.findNothrow, Option.bind_eq_bind]
    cases Ctype.findLoop signed name approx li si opts none [] [] <;> simp
  rw [e, Ctype.findLoop_none]
  constructor
  · rintro ⟨d, hd, h⟩
    obtain ⟨h1, h2⟩ := (Ctype.match_none hn (hl d hd) (hs d hd)).1 h
    exact ⟨h1, d, hd, h2⟩
  · rintro ⟨h1, d, hd, h2⟩
    exact ⟨d, hd, (Ctype.match_none hn (hl d hd) (hs d hd)).2 ⟨h1, h2⟩⟩

/-- C124: without a case insensitive style every lookup is defined, whatever the bytes. -/
theorem C124_lookup_exact (signed : Bool) (opts : List OptionDesc) (name : Str) (approx : Bool) :
    Ctype.findNothrow signed opts name approx false false = some (findNothrow opts name approx false false) := by
  cases h : Ctype.findNothrow signed opts name approx false false with
  | some r => rw [C124_lookup _ _ _ _ _ _ h]
  | none =>
    exfalso
    have ml : ∀ (o : Str) (ns : List Str) r, Ctype.matchLongs signed o approx false ns r ≠ none := by
      intro o ns
      induction ns with
      | nil => intro r h; cases h
      | cons n ns ih =>
        intro r
        simp only [Ctype.matchLongs, Ctype.lowerIf, Bool.false_eq_true, if_false, Option.bind_eq_bind, Option.bind_some]
        repeat' split
        all_goals first | exact ih _ | (intro h; cases h)
    have e : Ctype.findLoop signed name approx false false opts none [] [] = none := by
      simp only [Ctype.findNothrow, Option.bind_eq_bind] at h
      cases h' : Ctype.findLoop signed name approx false false opts none [] [] with
      | none => rfl
      | some x => rw [h'] at h; cases h
    obtain ⟨d, _, hd⟩ := Ctype.findLoop_none.1 e
    simp only [Ctype.match, Ctype.lowerIf, Bool.false_eq_true, if_false, Option.bind_eq_bind, Option.bind_some] at hd
    cases hm : Ctype.matchLongs signed name approx false d.longNames .noMatch with
    | none => exact ml _ _ _ hm
    | some r =>
      rw [hm] at hd
      simp only [Option.bind_some] at hd
      split at hd <;> cases hd

/-- C124: the narrow boolean validator. Where defined it does what the model says; it is undefined exactly where `char`
is signed and the one value has a byte from 0x80 to 0xfe. -/
theorem C124_bool (env : Env) (signed : Bool) (xs : List Str) (hb : ∀ s ∈ xs, Bytes s) :
    (∀ r, Ctype.validateBool signed xs = some r → r = validateScalar env .bool xs) ∧
    (Ctype.validateBool signed xs = none ↔ signed = true ∧ ∃ s, xs = [s] ∧ Stray s) := by
  rcases xs with _ | ⟨s, _ | ⟨t, ts⟩⟩
  · refine ⟨fun r h => by cases h; rfl, ?_⟩
    simp [Ctype.validateBool, getSingle, Ctype.lower]
  · have h := Ctype.lower_none (signed := signed) (hb s List.mem_cons_self)
    simp only [Ctype.validateBool, getSingle, Option.bind_eq_bind]
    cases hl : Ctype.lower signed s with
    | none =>
      refine ⟨by simp, ?_⟩
      simpa using h.1 hl
    | some l =>
      have hx := Ctype.lower_some hl
      have n1 : ¬ (signed = true ∧ Stray s) := fun h' => by rw [h.2 h'] at hl; cases hl
      refine ⟨?_, ?_⟩
      · intro r hr
        simp only [Option.bind_some, Option.some.injEq] at hr
        rw [← hr, hx]
        rfl
      · simpa using n1
  · refine ⟨fun r h => by cases h; rfl, ?_⟩
    simp [Ctype.validateBool, getSingle]

/-- C124: the wide boolean validator passes wide characters to the narrow function; undefined exactly where the one value
has a character above 255, whatever `char` is. -/
theorem C124_wide_bool (env : Env) (xs : List WStr) :
    (∀ r, Ctype.wvalidateBool env xs = some r → r = wvalidateScalar env .bool xs) ∧
    (Ctype.wvalidateBool env xs = none ↔ ∃ s, xs = [s] ∧ ∃ n ∈ s, 255 < n) := by
  rcases xs with _ | ⟨s, _ | ⟨t, ts⟩⟩
  · refine ⟨fun r h => by cases h; rfl, ?_⟩
    simp [Ctype.wvalidateBool, getSingle, Ctype.wlower]
  · have h := Ctype.wlower_none (s := s)
    simp only [Ctype.wvalidateBool, getSingle, Option.bind_eq_bind]
    cases hl : Ctype.wlower s with
    | none =>
      refine ⟨by simp, ?_⟩
      simpa using h.1 hl
    | some l =>
      have hx := Ctype.wlower_some hl
      have n1 : ¬ ∃ n ∈ s, 255 < n := fun h' => by rw [h.2 h'] at hl; cases hl
      refine ⟨?_, ?_⟩
      · intro r hr
        simp only [Option.bind_some, Option.some.injEq] at hr
        rw [← hr, hx]
        rfl
      · simpa using n1
  · refine ⟨fun r h => by cases h; rfl, ?_⟩
    simp [Ctype.wvalidateBool, getSingle]

/-- C124: the mapper from environment variables to options by prefix. Undefined exactly where `char` is signed, the name
begins with the prefix, and a byte from 0x80 to 0xfe follows it. -/
theorem C124_prefix (signed : Bool) (pre s : Str) (hb : Bytes s) :
    (∀ r, Ctype.prefixMapper signed pre s = some r → r = prefixMapper pre s) ∧
    (Ctype.prefixMapper signed pre s = none ↔ signed = true ∧ ∃ rest, s = pre ++ rest ∧ Stray rest) := by
  unfold Ctype.prefixMapper prefixMapper
  by_cases h : findSub s pre = some 0
  · rw [if_pos h, if_pos h]
    refine ⟨fun r hr => Ctype.lower_some hr, ?_⟩
    rw [Ctype.lower_none (fun c hc => hb c (List.mem_of_mem_drop hc))]
    have hp : pre ++ s.drop pre.length = s := by
      obtain ⟨t, rfl⟩ := (findSub_eq_zero s pre).1 h
      rw [List.drop_left]
    constructor
    · rintro ⟨h1, h2⟩
      exact ⟨h1, _, hp.symm, h2⟩
    · rintro ⟨h1, rest, e, h2⟩
      refine ⟨h1, ?_⟩
      rw [e, List.drop_left]
      exact h2
  · rw [if_neg h, if_neg h]
    refine ⟨fun r hr => by cases hr; rfl, ?_⟩
    simp only [reduceCtorEq, false_iff]
    rintro ⟨_, rest, e, _⟩
    exact h ((findSub_eq_zero s pre).2 ⟨rest, e.symm⟩)

/-- C124: the splitter for Windows command lines converts to `unsigned char` first, so it is always defined, and does what
the model says. -/
theorem C124_winmain (s : Str) : Ctype.splitWinmain s = some (splitWinmain s) := by
  simp only [Ctype.splitWinmain, Ctype.skipSpaces_eq, Option.bind_eq_bind, Option.bind_some]
  unfold splitWinmain
  cases s.dropWhile isSpace with
  | nil => rfl
  | cons c cs => exact Ctype.winLoop_eq _ _ _

/-- C124, partial: where `char` is unsigned, or all strings are ASCII, nothing above is undefined (the wide validator
excepted). -/
theorem C124_partial (env : Env) (signed : Bool) (opts : List OptionDesc) (name : Str) (approx li si : Bool)
    (xs : List Str) (pre var : Str) (hn : Bytes name) (hl : ∀ d ∈ opts, ∀ n ∈ d.longNames, Bytes n)
    (hs : ∀ d ∈ opts, Bytes d.shortName) (hx : ∀ s ∈ xs, Bytes s) (hv : Bytes var)
    (h : signed = true → ¬ Stray name ∧ (∀ d ∈ opts, (∀ n ∈ d.longNames, ¬ Stray n) ∧ ¬ Stray d.shortName) ∧
      (∀ s ∈ xs, ¬ Stray s) ∧ ¬ Stray var) :
    Ctype.findNothrow signed opts name approx li si = some (findNothrow opts name approx li si) ∧
    Ctype.validateBool signed xs = some (validateScalar env .bool xs) ∧
    Ctype.prefixMapper signed pre var = some (prefixMapper pre var) := by
  refine ⟨?_, ?_, ?_⟩
  · cases e : Ctype.findNothrow signed opts name approx li si with
    | some r => rw [C124_lookup _ _ _ _ _ _ e]
    | none =>
      obtain ⟨h1, d, hd, h2⟩ := (C124_lookup_iff signed opts name approx li si hn hl hs).1 e
      obtain ⟨a, b, _⟩ := h h1
      cases h2 with
      | asked _ x => exact absurd x a
      | long _ p n q e' _ x => exact absurd x ((b d hd).1 n (by rw [e']; simp))
      | short _ _ x => exact absurd x (b d hd).2
  · obtain ⟨h1, h2⟩ := C124_bool env signed xs hx
    cases e : Ctype.validateBool signed xs with
    | some r => rw [h1 r e]
    | none =>
      obtain ⟨h3, s, h4, h5⟩ := h2.1 e
      exact absurd h5 ((h h3).2.2.1 s (by simp [h4]))
  · obtain ⟨h1, h2⟩ := C124_prefix signed pre var hv
    cases e : Ctype.prefixMapper signed pre var with
    | some r => rw [h1 r e]
    | none =>
      obtain ⟨h3, rest, h4, c, h5, h6⟩ := h2.1 e
      exact absurd ⟨c, by rw [h4]; exact List.mem_append_right _ h5, h6⟩ (h h3).2.2.2

/-- C124 does not hold as stated: a boolean given as the two bytes of `é` in UTF-8, an option of that name looked up
without regard to case, an environment variable with that name after the prefix, and a wide boolean given as `€`. -/
theorem C124_not (env : Env) (d : OptionDesc) :
    Ctype.validateBool true [['\xc3', '\xa9']] = none ∧
    (∀ approx si, Ctype.findNothrow true [d] ['\xc3', '\xa9'] approx true si = none) ∧
    Ctype.prefixMapper true (str% "P_") ['P', '_', '\xc3', '\xa9'] = none ∧
    Ctype.wvalidateBool env [[0x20ac]] = none := ⟨rfl, fun _ _ => rfl, rfl, rfl⟩

/-- The option `--größe,G` with the name in Latin-1. -/
private def size (sem : ValueSemantic) : OptionDesc :=
  { shortName := str% "-G", longNames := [str% "size", ['g', 'r', '\xf6', '\xdf', 'e']], description := [], semantic := sem }

/-- Asked for as `SIZE`, the first long name answers and the second is not looked at; asked for as `other`, it is. -/
example (sem : ValueSemantic) :
    (Ctype.findNothrow true [size sem] (str% "SIZE") false true false).isSome = true ∧
    Ctype.findNothrow true [size sem] (str% "other") false true false = none ∧
    (Ctype.findNothrow false [size sem] (str% "other") false true false).isSome = true ∧
    (Ctype.findNothrow true [size sem] ['g', 'r', '\xf6', '\xdf', 'e'] false false true).isSome = true :=
  ⟨rfl, rfl, rfl, rfl⟩

/-- The byte 0xff is -1, which is `EOF`, where `char` is signed: allowed, and unchanged. -/
example (env : Env) : Ctype.validateBool true [['\xff']] = some (.error (errInvalidBool ['\xff'])) ∧
    validateScalar env .bool [['\xff']] = .error (errInvalidBool ['\xff']) := ⟨rfl, rfl⟩

/-- 0xa0 is no space to `split_winmain`. -/
example : Ctype.splitWinmain ['a', ' ', '\xa0', 'b'] = some [['a'], ['\xa0', 'b']] := rfl

end PO
