import Verif.Spec.Unregistered
import Verif.Props.ForwardExact
import Verif.Props.Guess
/-
C130: what is reported for options that are not known.
-/
namespace PO
open Spec
namespace Cmdline
variable {c : Cmdline}

/-! ### After the first pass nothing happens to them -/

theorem completesAll_marks {is : List Item} {taken : List Str} {os : List Opt} (h : CompletesAll c is taken os) :
    ∀ o ∈ os, o.unregistered = true → o.stringKey ≠ [] ∧ Unknown c o.stringKey := by
  have one : ∀ {i taken o}, Completes c i taken o → o.unregistered = true → o.stringKey ≠ [] ∧ Unknown c o.stringKey := by
    intro i taken o h hu
    cases h with
    | nameless => cases hu
    | unknown h0 hn => exact ⟨h0, hn⟩
    | known => cases hu
  induction h with
  | one h => intro o ho; rw [List.mem_singleton.1 ho]; exact one h
  | cons h _ ih =>
    intro o ho
    rcases List.mem_cons.1 ho with rfl | ho
    · exact one h
    · exact ih o ho

theorem reads_marks {args : List Str} {os : List Opt} (h : Reads c args os) :
    ∀ o ∈ os, o.unregistered = true → o.stringKey ≠ [] ∧ Unknown c o.stringKey := by
  induction h with
  | nil => simp
  | plain _ _ _ ih =>
    intro o ho
    rcases List.mem_cons.1 ho with rfl | ho
    · exact fun h => nomatch h
    · exact ih o ho
  | terminator =>
    intro o ho
    obtain ⟨t, _, rfl⟩ := List.mem_map.1 ho
    exact fun h => nomatch h
  | option _ hc _ ih =>
    intro o ho
    rcases List.mem_append.1 ho with ho | ho
    · exact completesAll_marks hc o ho
    · exact ih o ho

theorem gathers_unregistered {os os' : List Opt} (h : Gathers c os os')
    (hm : ∀ o ∈ os, o.unregistered = true → o.stringKey ≠ [] ∧ Unknown c o.stringKey) :
    os'.filter (·.unregistered) = os.filter (·.unregistered) := by
  induction h with
  | nil => rfl
  | positional _ _ ih => rw [List.filter_cons, List.filter_cons, ih fun o ho => hm o (by simp [ho])]
  | keep _ _ _ ih => rw [List.filter_cons, List.filter_cons, ih fun o ho => hm o (by simp [ho])]
  | @take o ps os os' d h0 hd hr hp hmax t ih =>
    have ho : o.unregistered = false := by
      cases hu : o.unregistered with
      | false => rfl
      | true => exact (denotes_not_unknown hd (hm o (by simp) hu).2).elim
    have hps : ps.filter (·.unregistered) = [] := by
      rw [List.filter_eq_nil_iff]
      intro p hp' hu
      exact (hm p (by simp [hp']) hu).1 (hp p hp').1
    rw [List.filter_cons, List.filter_cons, List.filter_append, hps, ih fun o ho => hm o (by simp [ho])]
    simp [ho]

theorem labels_unregistered {n : Nat} {os res : List Opt} (h : Labels c n os res) (hm : ∀ o ∈ os, o.unregistered = true → o.stringKey ≠ []) :
    res.filter (·.unregistered) = (os.filter (·.unregistered)).map (flagged c) := by
  induction h with
  | nil => rfl
  | @named n o os os' h t ih =>
    rw [List.filter_cons, List.filter_cons, ih fun o ho => hm o (by simp [ho])]
    dsimp only
    split <;> rfl
  | @positional n o os os' name h hn t ih =>
    have ho : o.unregistered = false := by
      cases hu : o.unregistered with
      | false => rfl
      | true => exact absurd h (hm o (by simp) hu)
    rw [List.filter_cons, List.filter_cons, ih fun o ho => hm o (by simp [ho])]
    dsimp only
    simp [ho]

/-! ### In the first pass -/

theorem unknownItems_complete {is : List Item} {taken : List Str} {os : List Opt} (h : CompletesAll c is taken os) :
    UnknownItems c is ((os.filter (·.unregistered)).map (flagged c)) := by
  have one : ∀ {i : Item} {taken : List Str} {o : Opt} {is : List Item} {us : List Opt}, Completes c i taken o → UnknownItems c is us →
      UnknownItems c (i :: is) (([o].filter (·.unregistered)).map (flagged c) ++ us) := by
    intro i taken o is us h t
    cases h with
    | nameless h => exact .other (fun h' => absurd h h') t
    | unknown h0 hn hu => exact .unknown h0 hn t
    | known d _ h0 hd => exact .other (fun _ hn => (denotes_not_unknown hd hn).elim) t
  induction h with
  | one h => have := one h .nil; rwa [List.append_nil] at this
  | @cons i o is taken os h _ ih =>
    have := one h ih
    rw [← List.map_append, ← List.filter_append] at this
    exact this

theorem unknownItems_det {is : List Item} {us us' : List Opt} (h : UnknownItems c is us) (h' : UnknownItems c is us') : us = us' := by
  induction h generalizing us' with
  | nil => cases h'; rfl
  | unknown h0 hn _ ih =>
    cases h' with
    | unknown _ _ t => rw [ih t]
    | other h _ => exact absurd hn (h h0)
  | other h _ ih =>
    cases h' with
    | unknown h0 hn _ => exact absurd hn (h h0)
    | other _ t => exact ih t

theorem reads_unknown {args : List Str} {os : List Opt} (h : Reads c args os) :
    UnknownOptions c args ((os.filter (·.unregistered)).map (flagged c)) := by
  induction h with
  | nil => exact .nil
  | plain h hd _ ih => exact .plain h hd ih
  | @terminator rest h =>
    have : (rest.map fun t => ({ value := [t], originalTokens := [t], positionKey := intMax } : Opt)).filter (·.unregistered) = [] := by
      rw [List.filter_eq_nil_iff]
      intro o ho
      obtain ⟨t, _, rfl⟩ := List.mem_map.1 ho
      simp
    rw [this]
    exact .terminator h
  | option h hc _ ih =>
    rw [List.filter_append, List.map_append]
    exact .option h hc (unknownItems_complete hc) ih

theorem unknown_reads {args : List Str} {us os : List Opt} (h : UnknownOptions c args us) (hr : Reads c args os) :
    us = (os.filter (·.unregistered)).map (flagged c) := by
  induction h generalizing os with
  | nil =>
    generalize e : ([] : List Str) = args at hr
    cases hr with
    | nil => rfl
    | plain => cases e
    | terminator => cases e
    | option => cases e
  | plain h hd _ ih =>
    obtain ⟨more, rfl, hm⟩ := reads_plain_inv h hd hr
    rw [ih hm]
    rfl
  | @terminator rest h =>
    have key := reads_unknown hr
    generalize e : (['-', '-'] : Str) :: rest = args at hr
    cases hr with
    | nil => cases e
    | plain _ hd => cases e; exact absurd rfl hd
    | terminator =>
      symm
      rw [List.map_eq_nil_iff, List.filter_eq_nil_iff]
      intro o ho
      obtain ⟨t, _, rfl⟩ := List.mem_map.1 ho
      simp
    | option hs => cases e; exact (terminator_not_spells h hs).elim
  | option h hc hu _ ih =>
    obtain ⟨more, rfl, hm⟩ := reads_option_inv h hc hr
    rw [List.filter_append, List.map_append, ← ih hm, unknownItems_det hu (unknownItems_complete hc)]

/-! ### The documentation -/

theorem documented_exists (c : Cmdline) (args : List Str) : ∃ us, DocumentedUnknown c args us := by
  induction args with
  | nil => exact ⟨[], .nil⟩
  | cons tok rest ih =>
    obtain ⟨us, h⟩ := ih
    by_cases hl : ∃ i, LooksUnknown c tok i
    · obtain ⟨i, hi⟩ := hl
      exact ⟨_, .unknown hi h⟩
    · exact ⟨us, .other (fun i hi => hl ⟨i, hi⟩) h⟩

theorem looksUnknown_tokens (ha : c.additional = none) {tok : Str} {i : Item} (h : LooksUnknown c tok i) : i.tokens = [tok] := by
  obtain ⟨hs, h0, hu⟩ := h
  cases hs with
  | additional f hf => rw [ha] at hf; cases hf
  | long => rfl
  | longEq => rfl
  | disguised _ _ _ _ _ _ _ _ hd => exact (denotes_not_unknown hd hu).elim
  | disguisedEq _ _ _ _ _ _ _ _ _ _ hd => exact (denotes_not_unknown hd hu).elim
  | short a t _ _ _ _ _ _ hg =>
    cases hg with
    | last => rfl
    | value => rfl
    | switch _ _ _ _ _ g => cases g
  | slash => rfl

theorem unknown_item_tokens (ha : c.additional = none) {tok : Str} {items : List Item} (h : Spells c tok items) :
    ∀ i ∈ items, Unknown c i.name → i.tokens = [] ∨ i.tokens = [tok] := by
  have group : ∀ {t : Str} {items : List Item}, Group c tok t items → ∀ i ∈ items, i.tokens = [] ∨ i.tokens = [tok] := by
    intro t items h
    induction h with
    | last => simp
    | value => simp
    | switch _ _ _ _ _ _ ih => simpa using ih
  cases h with
  | additional f hf => rw [ha] at hf; cases hf
  | long => simp
  | longEq => simp
  | disguised _ _ _ _ _ _ _ _ hd => intro i hi hu; rw [List.mem_singleton.1 hi] at hu; exact (denotes_not_unknown hd hu).elim
  | disguisedEq _ _ _ _ _ _ _ _ _ _ hd => intro i hi hu; rw [List.mem_singleton.1 hi] at hu; exact (denotes_not_unknown hd hu).elim
  | short a t _ _ _ _ _ _ hg => exact fun i hi _ => group hg i hi
  | slash => simp

theorem unknownItems_mem {is : List Item} {us : List Opt} (h : UnknownItems c is us) :
    ∀ o ∈ us, ∃ i ∈ is, i.name ≠ [] ∧ Unknown c i.name ∧ o = unknownOption c i i.tokens := by
  induction h with
  | nil => simp
  | unknown h0 hn _ ih =>
    intro o ho
    rcases List.mem_cons.1 ho with rfl | ho
    · exact ⟨_, by simp, h0, hn, rfl⟩
    · obtain ⟨i, hi, r⟩ := ih o ho
      exact ⟨i, by simp [hi], r⟩
  | other _ _ ih =>
    intro o ho
    obtain ⟨i, hi, r⟩ := ih o ho
    exact ⟨i, by simp [hi], r⟩

theorem unknownItems_none {is : List Item} {us : List Opt} (h : UnknownItems c is us) : us = [] ↔ ¬ ∃ i ∈ is, i.name ≠ [] ∧ Unknown c i.name := by
  induction h with
  | nil => simp
  | unknown h0 hn _ ih =>
    constructor
    · intro h; cases h
    · intro h; exact absurd ⟨_, by simp, h0, hn⟩ h
  | other h _ ih =>
    rw [ih]
    constructor
    · rintro hn ⟨i, hi, h0, hu⟩
      rcases List.mem_cons.1 hi with rfl | hi
      · exact h h0 hu
      · exact hn ⟨i, hi, h0, hu⟩
    · rintro hn ⟨i, hi, r⟩
      exact hn ⟨i, by simp [hi], r⟩

theorem documented_append {a b : List Str} {us : List Opt} (h : DocumentedUnknown c (a ++ b) us) :
    ∃ u v, us = u ++ v ∧ DocumentedUnknown c a u ∧ DocumentedUnknown c b v := by
  induction a generalizing us with
  | nil => exact ⟨[], us, rfl, .nil, h⟩
  | cons x a ih =>
    cases h with
    | unknown h t =>
      obtain ⟨u, v, rfl, h1, h2⟩ := ih t
      exact ⟨_ :: u, v, rfl, .unknown h h1, h2⟩
    | other h t =>
      obtain ⟨u, v, rfl, h1, h2⟩ := ih t
      exact ⟨u, v, rfl, .other h h1, h2⟩

/-- Nothing is documented for the tokens exactly if none looks like an unknown option. -/
theorem documented_none {a : List Str} {us : List Opt} (h : DocumentedUnknown c a us) : us = [] ↔ ∀ v ∈ a, ∀ i, ¬ LooksUnknown c v i := by
  induction h with
  | nil => simp
  | @unknown tok i rest os h _ ih =>
    constructor
    · intro h; cases h
    · intro h'; exact absurd h (h' tok (by simp) i)
  | other h _ ih =>
    rw [ih]
    simp [h]

/-- The option has been reported for a token by itself. -/
def Single (c : Cmdline) (o : Opt) : Prop := ∃ tok i, LooksUnknown c tok i ∧ o = unknownOption c i [tok]

/-- The reports of a command line and those documented, as they follow the tokens: `k` of them are both, `x` options are reported only,
`y` documented only. -/
theorem unknowns_count (ha : c.additional = none) {args : List Str} {os : List Opt} (h : Reads c args os) (hd : ['-', '-'] ∉ args) :
    ∀ {us ds : List Opt}, UnknownOptions c args us → DocumentedUnknown c args ds →
      ∃ k : List Opt, List.Sublist k us ∧ List.Sublist k ds ∧ (∀ o ∈ ds, Single c o) ∧
        (∀ q : Opt → Bool, (∀ o, q o = true ↔ Single c o) → us.filter q = k) ∧
        (UnknownsApart c args ↔ us = k ∧ ds = k) := by
  induction h with
  | nil =>
    intro us ds hu hds
    have hu' := unknown_reads hu .nil
    cases hds
    subst hu'
    exact ⟨[], by simp, by simp, by simp, by simp, ⟨fun _ => ⟨rfl, rfl⟩, fun _ => .nil⟩⟩
  | @plain tok rest os h hn t ih =>
    intro us ds hu hds
    have hu' : UnknownOptions c rest us := by
      generalize e : tok :: rest = args at hu
      cases hu with
      | nil => cases e
      | plain _ _ t => cases e; exact t
      | terminator => cases e; exact absurd rfl hn
      | option hs => cases e; exact (plain_not_spells h hs).elim
    have hds' : DocumentedUnknown c rest ds := by
      cases hds with
      | unknown h' => exact (plain_not_spells h h'.1).elim
      | other _ t => exact t
    obtain ⟨k, h1, h2, h3, h4, h5⟩ := ih (fun hh => hd (by simp [hh])) hu' hds'
    refine ⟨k, h1, h2, h3, h4, ?_⟩
    rw [← h5]
    constructor
    · intro ha'
      generalize e : tok :: rest = args at ha'
      cases ha' with
      | nil => cases e
      | plain _ _ t => cases e; exact t
      | option hs => cases e; exact (plain_not_spells h hs).elim
    · exact fun t => .plain h hn t
  | terminator => exact absurd (by simp) hd
  | @option tok items taken os rest more hs hc t ih =>
    intro us ds hu hds
    obtain ⟨us1, us2, rfl, hi, hu'⟩ : ∃ us1 us2, us = us1 ++ us2 ∧ UnknownItems c items us1 ∧ UnknownOptions c rest us2 := by
      generalize e : tok :: taken ++ rest = args at hu
      cases hu with
      | nil => cases e
      | plain hp => cases e; exact (plain_not_spells hp hs).elim
      | terminator hun => cases e; exact (terminator_not_spells hun hs).elim
      | option hs' hc' hi t =>
        rw [List.cons_append, List.cons_append] at e
        injection e with e1 e2
        subst e1
        cases (C61_token c tok).2 _ _ hs hs'
        obtain ⟨rfl, rfl, rfl⟩ := taken_eq hc hc' e2
        exact ⟨_, _, rfl, hi, t⟩
    obtain ⟨d1, d3, rfl, hd1, hd3⟩ := documented_append hds
    obtain ⟨d0, d2, rfl, hd0, hd2⟩ := documented_append (a := [tok]) hd1
    obtain ⟨k, h1, h2, h3, h4, h5⟩ := ih (fun hh => hd (by simp [hh])) hu' hd3
    have hapart : UnknownsApart c (tok :: taken ++ rest) ↔
        ((∃ i ∈ items, i.name ≠ [] ∧ Unknown c i.name) → items.length = 1) ∧ (∀ v ∈ taken, ∀ i, ¬ LooksUnknown c v i) ∧ UnknownsApart c rest := by
      constructor
      · intro h
        generalize e : tok :: taken ++ rest = args at h
        cases h with
        | nil => cases e
        | plain hp => cases e; exact (plain_not_spells hp hs).elim
        | option hs' hc' hg ht t =>
          rw [List.cons_append, List.cons_append] at e
          injection e with e1 e2
          subst e1
          cases (C61_token c tok).2 _ _ hs hs'
          obtain ⟨rfl, rfl, rfl⟩ := taken_eq hc hc' e2
          exact ⟨hg, ht, t⟩
      · rintro ⟨hg, ht, t⟩
        exact .option hs hc hg ht t
    have hsingle : ∀ {ts : List Str} {ds : List Opt}, DocumentedUnknown c ts ds → ∀ o ∈ ds, Single c o := by
      intro ts ds h
      induction h with
      | nil => simp
      | unknown h _ ih =>
        intro o ho
        rcases List.mem_cons.1 ho with rfl | ho
        · exact ⟨_, _, h, rfl⟩
        · exact ih o ho
      | other _ _ ih => exact ih
    by_cases hl : ∃ i, LooksUnknown c tok i
    · obtain ⟨i, hi'⟩ := hl
      cases (C61_token c tok).2 _ _ hs hi'.1
      have e1 : us1 = [unknownOption c i [tok]] := by
        rw [← looksUnknown_tokens ha hi']
        exact unknownItems_det hi (.unknown hi'.2.1 hi'.2.2 .nil)
      have e0 : d0 = [unknownOption c i [tok]] := by
        cases hd0 with
        | unknown h t =>
          cases t
          cases (C61_token c tok).2 _ _ hi'.1 h.1
          rfl
        | other h => exact absurd hi' (h i)
      subst e1 e0
      refine ⟨unknownOption c i [tok] :: k, ?_, ?_, ?_, ?_, ?_⟩
      · exact h1.cons_cons _
      · rw [List.append_assoc]
        exact (h2.trans (List.sublist_append_right _ _)).cons_cons _
      · intro o ho
        simp only [List.mem_append] at ho
        rcases ho with (ho | ho) | ho
        · exact hsingle hd0 o ho
        · exact hsingle hd2 o ho
        · exact h3 o ho
      · intro q hq
        rw [List.filter_append, h4 q hq, List.filter_cons, if_pos ((hq _).2 ⟨tok, i, hi', rfl⟩)]
        rfl
      · rw [hapart, h5, ← documented_none hd2]
        constructor
        · rintro ⟨-, rfl, rfl, rfl⟩
          exact ⟨rfl, by simp⟩
        · rintro ⟨e1, e2⟩
          have e1' : us2 = k := by simpa using e1
          have hlen := congrArg List.length e2
          simp only [List.length_append, List.length_cons, List.length_nil] at hlen
          have := h2.length_le
          have e3 : d2 = [] := List.eq_nil_of_length_eq_zero (by omega)
          refine ⟨fun _ => rfl, e3, e1', ?_⟩
          rw [e3] at e2
          simpa using e2
    · have e0 : d0 = [] := by
        cases hd0 with
        | unknown h => exact absurd ⟨_, h⟩ hl
        | other _ t => cases t; rfl
      subst e0
      have hq0 : ∀ o ∈ us1, ¬ Single c o := by
        rintro o ho ⟨tok', i', hl', e⟩
        obtain ⟨i, him, h0, hun, rfl⟩ := unknownItems_mem hi o ho
        have et : i.tokens = [tok'] := congrArg Opt.originalTokens e
        rcases unknown_item_tokens ha hs i him hun with h | h
        · rw [h] at et; cases et
        · rw [h] at et
          cases et
          exact hl ⟨i', hl'⟩
      have e1 : us1 = [] ↔ ((∃ i ∈ items, i.name ≠ [] ∧ Unknown c i.name) → items.length = 1) := by
        rw [unknownItems_none hi]
        constructor
        · exact fun h h' => absurd h' h
        · rintro h ⟨i, him, h0, hun⟩
          obtain ⟨j, rfl⟩ := List.length_eq_one_iff.1 (h ⟨i, him, h0, hun⟩)
          cases List.mem_singleton.1 him
          exact hl ⟨i, hs, h0, hun⟩
      refine ⟨k, ?_, ?_, ?_, ?_, ?_⟩
      · exact h1.trans (List.sublist_append_right _ _)
      · exact h2.trans (List.sublist_append_right _ _)
      · intro o ho
        simp only [List.mem_append] at ho
        rcases ho with (ho | ho) | ho
        · cases ho
        · exact hsingle hd2 o ho
        · exact h3 o ho
      · intro q hq
        rw [List.filter_append, h4 q hq, List.filter_eq_nil_iff.2 fun o ho h => hq0 o ho ((hq o).1 h)]
        rfl
      · rw [hapart, h5, ← documented_none hd2, ← e1]
        constructor
        · rintro ⟨rfl, rfl, rfl, rfl⟩
          exact ⟨rfl, by simp⟩
        · rintro ⟨e1, e2⟩
          have l1 := congrArg List.length e1
          have l2 := congrArg List.length e2
          simp only [List.length_append, List.length_nil] at l1 l2
          have := h2.length_le
          have := h1.length_le
          have e3 : d2 = [] := List.eq_nil_of_length_eq_zero (by omega)
          have e4 : us1 = [] := List.eq_nil_of_length_eq_zero (by omega)
          subst e3 e4
          exact ⟨rfl, rfl, by simpa using e1, by simpa using e2⟩

end Cmdline
open Cmdline

/-- **C130, exactly what is reported.** The options flagged as unregistered are the unknown ones written on the command line, in their order, each with its name and
value as written; of a group of short options only the last one, which is the one with the token. Tokens that are taken as values and those behind the terminator
are not among them. -/
theorem C130_reported (c : Cmdline) (hs : c.styleParser = none) (hne : ∀ d ∈ c.desc, ∀ name, name ≠ [] → reportedKey d name ≠ []) (args : List Str)
    (hlen : args.length < 2147483648) (res : List Opt) (h : c.run args = .ok res) (us : List Opt) :
    UnknownOptions c args us ↔ res.filter (·.unregistered) = us := by
  obtain ⟨os, os', h1, h2, h3⟩ := (C61_grammar c hs hne args hlen res).1 h
  have hm := reads_marks h1
  have hg := gathers_unregistered h2 hm
  have hk : ∀ o ∈ os', o.unregistered = true → o.stringKey ≠ [] := by
    intro o ho hu
    have : o ∈ os'.filter (·.unregistered) := List.mem_filter.2 ⟨ho, hu⟩
    rw [hg] at this
    exact (hm o (List.mem_filter.1 this).1 hu).1
  rw [labels_unregistered h3 hk, hg]
  constructor
  · exact fun h => (unknown_reads h h1).symm
  · rintro rfl; exact reads_unknown h1

/-- **C130, exactly when it is as documented**: on a command line without terminator there is one instance for each token that looks like an option without a known
name, if and only if no such token is taken as a value and no unknown option is written in a group after others. -/
theorem C130_iff (c : Cmdline) (hs : c.styleParser = none) (ha : c.additional = none) (hne : ∀ d ∈ c.desc, ∀ name, name ≠ [] → reportedKey d name ≠ [])
    (args : List Str) (hlen : args.length < 2147483648) (hd : ['-', '-'] ∉ args) (res : List Opt) (h : c.run args = .ok res) :
    DocumentedUnknown c args (res.filter (·.unregistered)) ↔ UnknownsApart c args := by
  obtain ⟨os, os', h1, h2, h3⟩ := (C61_grammar c hs hne args hlen res).1 h
  have hu := (C130_reported c hs hne args hlen res h _).2 rfl
  obtain ⟨ds, hds⟩ := documented_exists c args
  constructor
  · intro hdoc
    obtain ⟨k, -, -, k3, k4, k5⟩ := unknowns_count ha h1 hd hu hdoc
    classical
    have e := k4 (fun o => decide (Single c o)) (by simp)
    rw [List.filter_eq_self.2 (by simpa using k3)] at e
    exact k5.2 ⟨e, e⟩
  · intro hap
    obtain ⟨k, -, -, -, -, k5⟩ := unknowns_count ha h1 hd hu hds
    obtain ⟨e1, e2⟩ := k5.1 hap
    rw [e1, ← e2]
    exact hds

/-- **C130, partial**: as documented, if no declared option needs a value of its own and no unknown option is in a group after others. -/
theorem C130_partial (c : Cmdline) (hs : c.styleParser = none) (ha : c.additional = none) (hne : ∀ d ∈ c.desc, ∀ name, name ≠ [] → reportedKey d name ≠ [])
    (args : List Str) (hlen : args.length < 2147483648) (hd : ['-', '-'] ∉ args) (hmin : ∀ d ∈ c.desc, d.semantic.minTokens = 0)
    (hgroup : ∀ t ∈ args, ∀ items, Spells c t items → (∃ i ∈ items, i.name ≠ [] ∧ Unknown c i.name) → items.length = 1) (res : List Opt) (h : c.run args = .ok res) :
    DocumentedUnknown c args (res.filter (·.unregistered)) := by
  rw [C130_iff c hs ha hne args hlen hd res h]
  obtain ⟨os, os', h1, -, -⟩ := (C61_grammar c hs hne args hlen res).1 h
  clear h hlen
  have hnil : ∀ {is : List Item} {taken : List Str} {os : List Opt}, CompletesAll c is taken os → taken = [] := by
    have one : ∀ {i taken o}, Completes c i taken o → taken = [] := by
      intro i taken o h
      cases h with
      | nameless => rfl
      | unknown => rfl
      | known d _ _ hd hl => rw [hmin d (Cmdline.denotes_mem hd)] at hl; exact List.eq_nil_of_length_eq_zero (by omega)
    intro is taken os h
    induction h with
    | one h => exact one h
    | cons _ _ ih => exact ih
  induction h1 with
  | nil => exact .nil
  | plain h hn _ ih => exact .plain h hn (ih (fun h => hd (by simp [h])) fun t ht => hgroup t (by simp [ht]))
  | terminator => exact absurd (by simp) hd
  | option h hc _ ih =>
    refine .option h hc (hgroup _ (by simp) _ h) ?_ (ih (fun h => hd (by simp [h])) fun t ht => hgroup t (by simp [ht]))
    rw [hnil hc]
    simp

/-- **C130, a token in its place**: after a beginning of the command line that can be read by itself, a token that looks like an option without a known name is
reported, whatever follows. -/
theorem C130_token (c : Cmdline) (hs : c.styleParser = none) (ha : c.additional = none) (hne : ∀ d ∈ c.desc, ∀ name, name ≠ [] → reportedKey d name ≠ [])
    (before after : List Str) (tok : Str) (i : Item) (hlen : (before ++ tok :: after).length < 2147483648) (hd : ['-', '-'] ∉ before)
    (r res : List Opt) (hb : c.run before = .ok r) (hi : LooksUnknown c tok i) (h : c.run (before ++ tok :: after) = .ok res) :
    ∃ more, res.filter (·.unregistered) = r.filter (·.unregistered) ++ unknownOption c i [tok] :: more := by
  have hl : before.length < 2147483648 := by rw [List.length_append] at hlen; omega
  obtain ⟨os, os', h1, h2, h3⟩ := (C61_grammar c hs hne before hl r).1 hb
  obtain ⟨ps, ps', g1, g2, g3⟩ := (C61_grammar c hs hne _ hlen res).1 h
  have hf : Front c before os := by
    rcases reads_split h1 with h | ⟨a, b, xs, rfl, _⟩
    · exact h
    · exact absurd (by simp) hd
  obtain ⟨ys, rfl, hy⟩ := hf.det g1
  have e1 := (C130_reported c hs hne before hl r hb _).1 (reads_unknown h1)
  have e2 := (C130_reported c hs hne _ hlen res h _).1 (reads_unknown g1)
  rw [e2, e1, List.filter_append, List.map_append]
  generalize e : tok :: after = rest at hy
  cases hy with
  | nil => cases e
  | plain hp => cases e; exact (plain_not_spells hp hi.1).elim
  | terminator hu => cases e; exact (terminator_not_spells hu hi.1).elim
  | option hs' hc t =>
    rw [List.cons_append] at e
    injection e with e3 e4
    subst e3
    cases (C61_token c tok).2 _ _ hi.1 hs'
    have e5 := unknownItems_det (unknownItems_complete hc) (.unknown hi.2.1 hi.2.2 .nil)
    rw [looksUnknown_tokens ha hi] at e5
    rw [List.filter_append, List.map_append, e5]
    exact ⟨_, rfl⟩

/-! ### Not as documented -/

/-- **C130 is false in the code**: `--level`, an unknown option, is taken as the value of `--out`. -/
theorem C130_not : ∃ (c : Cmdline) (args : List Str) (res : List Opt), c.styleParser = none ∧ c.additional = none ∧ c.allowUnregistered = true ∧
    checkStyle c.style = .ok () ∧ c.run args = .ok res ∧ ['-', '-'] ∉ args ∧ ¬ DocumentedUnknown c args (res.filter (·.unregistered)) := by
  refine ⟨forwardExample, [Test.L "--out", Test.L "--level"],
    [{ stringKey := Test.L "out", value := [Test.L "--level"], originalTokens := [Test.L "--out", Test.L "--level"] }], rfl, rfl, rfl, rfl, rfl, by decide, ?_⟩
  have hu : LooksUnknown forwardExample (Test.L "--level") ⟨Test.L "level", [], [Test.L "--level"]⟩ :=
    ⟨.long _ (fun f hf => nomatch hf) (by unfold Enabled; decide) rfl (by decide) (by decide), by decide, lookup_unknown.1 rfl⟩
  intro h
  cases h with
  | other _ t => cases t with
    | other h => exact h _ hu

/-- An unknown option in the place of a value, in a group, and two by themselves. -/
example : UnknownOptions forwardExample [Test.L "--out", Test.L "--level", Test.L "-vx", Test.L "-y7", Test.L "--far=near", Test.L "--", Test.L "-z"]
    [{ stringKey := Test.L "-x", originalTokens := [Test.L "-vx"], unregistered := true },
     { stringKey := Test.L "-y", value := [Test.L "7"], originalTokens := [Test.L "-y7"], unregistered := true },
     { stringKey := Test.L "far", value := [Test.L "near"], originalTokens := [Test.L "--far=near"], unregistered := true }] :=
  (C130_reported forwardExample rfl forwardExample_keys _ (by decide) _ rfl _).2 rfl

/-- An option with its value, an unknown one, and an argument. -/
example : UnknownsApart forwardExample [Test.L "--out", Test.L "a", Test.L "--far=near"] ∧
    DocumentedUnknown forwardExample [Test.L "--out", Test.L "a", Test.L "--far=near"]
      [{ stringKey := Test.L "far", value := [Test.L "near"], originalTokens := [Test.L "--far=near"], unregistered := true }] := by
  have hl : Enabled forwardExample Style.allowLong := by unfold Enabled; decide
  have ho : Spells forwardExample (Test.L "--out") [⟨Test.L "out", [], [Test.L "--out"]⟩] :=
    .long _ (fun f hf => nomatch hf) hl rfl (by decide) (by decide)
  have hf : LooksUnknown forwardExample (Test.L "--far=near") ⟨Test.L "far", [Test.L "near"], [Test.L "--far=near"]⟩ :=
    ⟨.longEq (Test.L "far") (Test.L "near") (fun f hf => nomatch hf) hl rfl (by decide) (by decide), by decide, lookup_unknown.1 rfl⟩
  have hd : DocumentedUnknown forwardExample [Test.L "--out", Test.L "a", Test.L "--far=near"]
      [{ stringKey := Test.L "far", value := [Test.L "near"], originalTokens := [Test.L "--far=near"], unregistered := true }] := by
    refine .other ?_ (.other ?_ (.unknown hf .nil))
    · rintro i ⟨h, -, hu⟩
      cases (C61_token _ _).2 _ _ ho h
      exact absurd (lookup_unknown.2 hu) (by intro h; cases h)
    · rintro i ⟨h, -⟩
      obtain ⟨x, t, e, hx⟩ := Guess.spells_lead rfl h
      cases e
      exact absurd hx (by decide)
  have h := C130_iff forwardExample rfl rfl forwardExample_keys [Test.L "--out", Test.L "a", Test.L "--far=near"] (by decide) (by decide)
    [{ stringKey := Test.L "out", value := [Test.L "a"], originalTokens := [Test.L "--out", Test.L "a"] },
     { stringKey := Test.L "far", value := [Test.L "near"], originalTokens := [Test.L "--far=near"], unregistered := true }] rfl
  exact ⟨h.1 hd, hd⟩

end PO
