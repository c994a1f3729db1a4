import Verif.Spec.Forward
import Verif.Props.Implicit
import Verif.Props.RoundTrip
/-
C89, exactly: which command lines can be taken apart.
-/
namespace PO
open Spec

namespace Cmdline

variable {c : Cmdline}

/-- Reading up to the terminator. -/
inductive Front (c : Cmdline) : List Str → List Opt → Prop
  | nil : Front c [] []
  | plain {tok rest os} (h : Plain c tok) (hd : tok ≠ ['-', '-']) (t : Front c rest os) : Front c (tok :: rest) ({ value := [tok], originalTokens := [tok] } :: os)
  | option {tok items taken os rest more} (h : Spells c tok items) (hc : CompletesAll c items taken os) (t : Front c rest more) :
      Front c (tok :: taken ++ rest) (os ++ more)

/-- An argument behind the terminator. -/
def protected_ (t : Str) : Opt := { value := [t], originalTokens := [t], positionKey := intMax }

theorem Front.append {a b : List Str} {xs ys : List Opt} (h : Front c a xs) (hb : Reads c b ys) : Reads c (a ++ b) (xs ++ ys) := by
  induction h with
  | nil => exact hb
  | plain h hd _ ih => exact .plain h hd ih
  | option h hc _ ih =>
    rw [List.append_assoc, List.append_assoc]
    exact .option h hc ih

theorem Front.reads {a : List Str} {xs : List Opt} (h : Front c a xs) : Reads c a xs := by
  have := h.append .nil
  simpa using this

theorem Front.join {a b : List Str} {xs ys : List Opt} (h : Front c a xs) (hb : Front c b ys) : Front c (a ++ b) (xs ++ ys) := by
  induction h with
  | nil => exact hb
  | plain h hd _ ih => exact .plain h hd ih
  | option h hc _ ih =>
    rw [List.append_assoc, List.append_assoc]
    exact .option h hc ih

theorem reads_split {args : List Str} {os : List Opt} (h : Reads c args os) :
    Front c args os ∨ ∃ a b xs, args = a ++ ['-', '-'] :: b ∧ Unclaimed c ['-', '-'] ∧ Front c a xs ∧ os = xs ++ b.map protected_ := by
  induction h with
  | nil => exact .inl .nil
  | @plain tok rest os h hd _ ih =>
    rcases ih with ih | ⟨a, b, xs, rfl, hu, ha, rfl⟩
    · exact .inl (.plain h hd ih)
    · exact .inr ⟨tok :: a, b, _ :: xs, rfl, hu, .plain h hd ha, rfl⟩
  | @terminator rest h => exact .inr ⟨[], rest, [], rfl, h, .nil, rfl⟩
  | @option tok items taken os rest more h hc _ ih =>
    rcases ih with ih | ⟨a, b, xs, rfl, hu, ha, rfl⟩
    · exact .inl (.option h hc ih)
    · exact .inr ⟨tok :: taken ++ a, b, os ++ xs, by simp, hu, .option h hc ha, by simp⟩

/-! ### Reading is determined -/

theorem completes_det {i : Item} {t1 t2 : List Str} {o1 o2 : Opt} (h : Completes c i t1 o1) (h' : Completes c i t2 o2) : t1.length = t2.length ∧ (t1 = t2 → o1 = o2) := by
  cases h with
  | nameless h =>
    cases h' with
    | nameless => exact ⟨rfl, fun _ => rfl⟩
    | unknown h' => exact absurd h h'
    | known _ _ h' => exact absurd h h'
  | unknown h hn =>
    cases h' with
    | nameless h' => exact absurd h' h
    | unknown => exact ⟨rfl, fun _ => rfl⟩
    | known _ _ _ hd => exact (denotes_not_unknown hd hn).elim
  | known d _ h hd hl =>
    cases h' with
    | nameless h' => exact absurd h' h
    | unknown _ hn => exact (denotes_not_unknown hd hn).elim
    | known d' _ _ hd' hl' =>
      cases denotes_unique hd hd'
      exact ⟨hl.trans hl'.symm, fun e => by rw [e]⟩

theorem completesAll_det {is : List Item} {t1 t2 : List Str} {os1 os2 : List Opt} (h : CompletesAll c is t1 os1) (h' : CompletesAll c is t2 os2) :
    t1.length = t2.length ∧ (t1 = t2 → os1 = os2) := by
  induction h generalizing t2 os2 with
  | one h =>
    cases h' with
    | one h' => exact ⟨(completes_det h h').1, fun e => by rw [(completes_det h h').2 e]⟩
    | cons _ t => cases t
  | cons h t ih =>
    cases h' with
    | one => cases t
    | cons h' t' => exact ⟨(ih t').1, fun e => by rw [(completes_det h h').2 rfl, (ih t').2 e]⟩

theorem taken_eq {items : List Item} {t1 t2 r1 r2 : List Str} {os1 os2 : List Opt} (h : CompletesAll c items t1 os1) (h' : CompletesAll c items t2 os2)
    (e : t1 ++ r1 = t2 ++ r2) : t1 = t2 ∧ r1 = r2 ∧ os1 = os2 := by
  obtain ⟨hl, ho⟩ := completesAll_det h h'
  obtain ⟨e1, e2⟩ := List.append_inj e hl
  exact ⟨e1, e2, ho e1⟩

theorem reads_plain_inv {tok : Str} {rest : List Str} {os : List Opt} (hp : Plain c tok) (hd : tok ≠ ['-', '-']) (h : Reads c (tok :: rest) os) :
    ∃ more, os = { value := [tok], originalTokens := [tok] } :: more ∧ Reads c rest more := by
  generalize e : tok :: rest = args at h
  cases h with
  | nil => cases e
  | plain _ _ t => cases e; exact ⟨_, rfl, t⟩
  | terminator => cases e; exact absurd rfl hd
  | option hs => cases e; exact (plain_not_spells hp hs).elim

theorem reads_option_inv {tok : Str} {items : List Item} {taken rest : List Str} {os1 os : List Opt} (hs : Spells c tok items) (hc : CompletesAll c items taken os1)
    (h : Reads c (tok :: taken ++ rest) os) : ∃ more, os = os1 ++ more ∧ Reads c rest more := by
  generalize e : tok :: taken ++ rest = args at h
  cases h with
  | nil => cases e
  | plain hp => cases e; exact (plain_not_spells hp hs).elim
  | terminator hu => cases e; exact (terminator_not_spells hu hs).elim
  | option hs' hc' t =>
    rw [List.cons_append, List.cons_append] at e
    injection e with e1 e2
    subst e1
    cases (C61_token c tok).2 _ _ hs hs'
    obtain ⟨rfl, rfl, rfl⟩ := taken_eq hc hc' e2
    exact ⟨_, rfl, t⟩

theorem Front.det {x y : List Str} {xs os : List Opt} (h : Front c x xs) (hr : Reads c (x ++ y) os) : ∃ ys, os = xs ++ ys ∧ Reads c y ys := by
  induction h generalizing os with
  | nil => exact ⟨os, rfl, hr⟩
  | plain h hd _ ih =>
    obtain ⟨more, rfl, hm⟩ := reads_plain_inv h hd hr
    obtain ⟨ys, rfl, hy⟩ := ih hm
    exact ⟨ys, rfl, hy⟩
  | option h hc _ ih =>
    rw [List.append_assoc] at hr
    obtain ⟨more, rfl, hm⟩ := reads_option_inv h hc hr
    obtain ⟨ys, rfl, hy⟩ := ih hm
    exact ⟨ys, by simp, hy⟩

theorem unmixed_plain {tok : Str} {rest : List Str} (hp : Plain c tok) (hd : tok ≠ ['-', '-']) : Unmixed c (tok :: rest) ↔ Unmixed c rest := by
  refine ⟨fun h => ?_, .plain hp hd⟩
  generalize e : tok :: rest = args at h
  cases h with
  | nil => cases e
  | plain _ _ t => cases e; exact t
  | terminator => cases e; exact absurd rfl hd
  | option hs => cases e; exact (plain_not_spells hp hs).elim

theorem unmixed_option {tok : Str} {items : List Item} {taken rest : List Str} {os1 : List Opt} (hs : Spells c tok items) (hc : CompletesAll c items taken os1) :
    Unmixed c (tok :: taken ++ rest) ↔ ¬ MixedGroup c items ∧ Unmixed c rest := by
  refine ⟨fun h => ?_, fun h => .option hs hc h.1 h.2⟩
  generalize e : tok :: taken ++ rest = args at h
  cases h with
  | nil => cases e
  | plain hp => cases e; exact (plain_not_spells hp hs).elim
  | terminator hu => cases e; exact (terminator_not_spells hu hs).elim
  | option hs' hc' hm t =>
    rw [List.cons_append, List.cons_append] at e
    injection e with e1 e2
    subst e1
    cases (C61_token c tok).2 _ _ hs hs'
    obtain ⟨rfl, rfl, rfl⟩ := taken_eq hc hc' e2
    exact ⟨hm, t⟩

theorem Front.behind {x y b : List Str} {xs : List Opt} (h : Front c x xs) : Behind c b (x ++ y) ↔ Behind c b y := by
  induction h with
  | nil => exact Iff.rfl
  | @plain tok rest os hp hd _ ih =>
    rw [← ih]
    refine ⟨fun h => ?_, .plain hp hd⟩
    generalize e : tok :: rest ++ y = args at h
    cases h with
    | here => cases e; exact absurd rfl hd
    | plain _ _ t => cases e; exact t
    | option hs =>
      rw [List.cons_append, List.cons_append] at e
      injection e with e1 _
      subst e1
      exact (plain_not_spells hp hs).elim
  | @option tok items taken os rest more hs hc _ ih =>
    rw [← ih, List.append_assoc]
    refine ⟨fun h => ?_, .option hs hc⟩
    generalize e : tok :: taken ++ (rest ++ y) = args at h
    cases h with
    | here hu => cases e; exact (terminator_not_spells hu hs).elim
    | plain hp => cases e; exact (plain_not_spells hp hs).elim
    | option hs' hc' t =>
      rw [List.cons_append, List.cons_append] at e
      injection e with e1 e2
      subst e1
      cases (C61_token c tok).2 _ _ hs hs'
      obtain ⟨_, rfl, _⟩ := taken_eq hc hc' e2
      exact t

theorem behind_nil {b : List Str} : ¬ Behind c b [] := by
  intro h
  generalize e : ([] : List Str) = args at h
  cases h <;> cases e

theorem behind_terminator {b r : List Str} (hu : Unclaimed c ['-', '-']) : Behind c b (['-', '-'] :: r) ↔ b = r := by
  refine ⟨fun h => ?_, fun h => h ▸ .here hu⟩
  generalize e : ['-', '-'] :: r = args at h
  cases h with
  | here => cases e; rfl
  | plain _ hd => cases e; exact absurd rfl hd
  | option hs => cases e; exact (terminator_not_spells hu hs).elim

/-! ### Gathering -/

theorem gathers_protected {b : List Str} {zs os' : List Opt} (h : Gathers c zs os') : ∀ {xs : List Opt}, zs = xs ++ b.map protected_ →
    ∃ xs', os' = xs' ++ b.map protected_ ∧ Gathers c xs xs' := by
  have loose : ∀ p ∈ b.map protected_, ¬ Spec.Loose p := by
    intro p hp hl
    obtain ⟨t, _, rfl⟩ := List.mem_map.1 hp
    exact hl.2 rfl
  have unn : ∀ p ∈ b.map protected_, p.stringKey = [] := by
    intro p hp
    obtain ⟨t, _, rfl⟩ := List.mem_map.1 hp
    rfl
  have base : ∀ {zs os' : List Opt}, Gathers c zs os' → (∀ p ∈ zs, p.stringKey = []) → os' = zs := by
    intro zs os' h
    induction h with
    | nil => intro _; rfl
    | positional _ _ ih => intro h; rw [ih fun q hq => h q (by simp [hq])]
    | keep hk => intro h; exact absurd (h _ (by simp)) hk
    | take _ hk => intro h; exact absurd (h _ (by simp)) hk
  have start : ∀ {zs os' : List Opt}, Gathers c zs os' → zs = [] ++ b.map protected_ → ∃ xs', os' = xs' ++ b.map protected_ ∧ Gathers c [] xs' := by
    rintro zs os' h e
    rw [List.nil_append] at e
    exact ⟨[], by rw [List.nil_append, base h (by rw [e]; exact unn), e], .nil⟩
  induction h with
  | nil =>
    intro xs e
    obtain ⟨rfl, _⟩ := List.append_eq_nil_iff.1 e.symm
    exact ⟨[], e, .nil⟩
  | positional h t ih =>
    intro xs e
    cases xs with
    | nil => exact start (.positional h t) e
    | cons x xs =>
      rw [List.cons_append] at e
      injection e with e1 e2
      subst e1
      obtain ⟨xs', rfl, hg⟩ := ih e2
      exact ⟨_ :: xs', rfl, .positional h hg⟩
  | keep h hk t ih =>
    intro xs e
    cases xs with
    | nil => exact start (.keep h hk t) e
    | cons x xs =>
      rw [List.cons_append] at e
      injection e with e1 e2
      subst e1
      obtain ⟨xs', rfl, hg⟩ := ih e2
      exact ⟨_ :: xs', rfl, .keep h hk hg⟩
  | @take o ps os os' d h hd hr hp hmax t ih =>
    intro xs e
    cases xs with
    | nil => exact start (.take d h hd hr hp hmax t) e
    | cons x xs =>
      rw [List.cons_append] at e
      injection e with e1 e2
      subst e1
      obtain ⟨os1, rfl, e3⟩ : ∃ os1, xs = ps ++ os1 ∧ os = os1 ++ b.map protected_ := by
        rcases List.append_eq_append_iff.1 e2 with ⟨w, e3, e4⟩ | ⟨w, e3, e4⟩
        · exact ⟨w, e3, e4⟩
        · cases w with
          | nil => exact ⟨[], by simpa using e3.symm, by simpa using e4.symm⟩
          | cons q w => exact absurd (hp q (by rw [e3]; simp)) (loose q (by rw [e4]; simp))
      obtain ⟨xs', rfl, hg⟩ := ih e3
      refine ⟨_ :: xs', rfl, .take d h hd hr hp (hmax.imp id fun hm => ⟨hm.1, fun p hp => hm.2 p ?_⟩) hg⟩
      rw [e3]
      cases os1 with
      | nil => cases hp
      | cons => exact hp

/-- Options in a row: only the last one can take positional arguments. -/
theorem gathers_row {init : List Opt} {l : Opt} (hi : ∀ o ∈ init, o.stringKey ≠ []) (hl : l.stringKey ≠ []) :
    ∀ {more os' : List Opt}, Gathers c (init ++ l :: more) os' → ∃ ps more' l' ys, more = ps ++ more' ∧ (∀ p ∈ ps, Spec.Loose p) ∧ os' = init ++ l' :: ys ∧
      Gathers c (init ++ l :: ps) (init ++ [l']) ∧ Gathers c more' ys ∧ l'.stringKey = l.stringKey ∧ l'.unregistered = l.unregistered ∧ l'.positionKey = l.positionKey ∧
      l'.originalTokens = l.originalTokens ++ ps.flatMap (·.originalTokens) ∧ (Unknown c l.stringKey → ps = [] ∧ l' = l) := by
  induction init with
  | nil =>
    intro more os' h
    generalize e : [] ++ l :: more = zs at h
    cases h with
    | nil => cases e
    | positional h => cases e; exact absurd h hl
    | keep h hk t =>
      cases e
      exact ⟨[], more, l, _, rfl, by simp, rfl, .keep h hk .nil, t, rfl, rfl, rfl, by simp, fun _ => ⟨rfl, rfl⟩⟩
    | @take _ ps more' os' d h hd hroom hp hmax t =>
      cases e
      refine ⟨ps, more', _, os', rfl, hp, rfl, ?_, t, rfl, rfl, rfl, rfl, fun hu => (denotes_not_unknown hd hu).elim⟩
      have := Gathers.take (c := c) (os := []) d h hd hroom hp (hmax.imp id fun hm => ⟨hm.1, by simp⟩) .nil
      simpa using this
  | cons o init ih =>
    intro more os' h
    have ho := hi o (by simp)
    have ih := @ih fun q hq => hi q (by simp [hq])
    generalize e : o :: init ++ l :: more = zs at h
    cases h with
    | nil => cases e
    | positional h => cases e; exact absurd h ho
    | keep h hk t =>
      cases e
      obtain ⟨ps, more', l', ys, e1, h1, rfl, h2, h3⟩ := ih t
      exact ⟨ps, more', l', ys, e1, h1, rfl, .keep h hk h2, h3⟩
    | @take _ ps more' os' d h hd hroom hp hmax t =>
      rw [List.cons_append] at e
      injection e with e1 e2
      subst e1
      have hnext : ∃ q r, init ++ l :: more = q :: r ∧ q.stringKey ≠ [] := by
        cases init with
        | nil => exact ⟨l, more, rfl, hl⟩
        | cons q init => exact ⟨q, _, rfl, hi q (by simp)⟩
      obtain ⟨q, r, eq, hq⟩ := hnext
      cases ps with
      | cons p ps =>
        rw [eq, List.cons_append] at e2
        injection e2 with e3 _
        exact absurd (hp p (by simp)).1 (e3 ▸ hq)
      | nil =>
        rw [List.nil_append] at e2
        subst e2
        obtain ⟨ps, more', l', ys, e1, h1, rfl, h2, h3⟩ := ih t
        refine ⟨ps, more', l', ys, e1, h1, by simp, ?_, h3⟩
        have hhead : ∀ p, (init ++ l :: ps).head? = some p → ¬ Spec.Loose p := by
          intro p hp hlo
          have : p = q := by
            cases init with
            | nil => cases eq; cases hp; rfl
            | cons => cases eq; cases hp; rfl
          exact hq (this ▸ hlo.1)
        have := Gathers.take (c := c) (ps := []) d h hd hroom (by simp) (hmax.imp id fun hm => ⟨hm.1, hhead⟩) h2
        simpa using this

/-- Options that take nothing. -/
theorem gathers_idle {F : List Opt} (hF : ∀ o ∈ F, o.stringKey = [] ∨ Unknown c o.stringKey) {ys zs : List Opt} :
    Gathers c (F ++ ys) zs ↔ ∃ ys', zs = F ++ ys' ∧ Gathers c ys ys' := by
  induction F generalizing zs with
  | nil => exact ⟨fun h => ⟨zs, rfl, h⟩, by rintro ⟨_, rfl, h⟩; exact h⟩
  | cons o F ih =>
    have ih := @ih fun q hq => hF q (by simp [hq])
    constructor
    · intro h
      have : ∃ rest, zs = o :: rest ∧ Gathers c (F ++ ys) rest := by
        by_cases h0 : o.stringKey = []
        · exact gathers_cons_nil h h0
        · exact gathers_cons_unknown h h0 ((hF o (by simp)).resolve_left h0)
      obtain ⟨rest, rfl, hr⟩ := this
      obtain ⟨ys', rfl, hy⟩ := ih.1 hr
      exact ⟨ys', rfl, hy⟩
    · rintro ⟨ys', rfl, hy⟩
      have hr := ih.2 ⟨ys', rfl, hy⟩
      by_cases h0 : o.stringKey = []
      · exact .positional h0 hr
      · exact .keep h0 (.inl ((hF o (by simp)).resolve_left h0)) hr

/-! ### The options of one token -/

theorem spells_shape (ha : c.additional = none) (hd : ¬ Enabled c Style.allowLongDisguise) {tok : Str} {items : List Item} (h : Spells c tok items) :
    ∃ init i, items = init ++ [i] ∧ (∀ j ∈ init, j.tokens = []) ∧ i.tokens = [tok] := by
  have group : ∀ {t : Str} {items : List Item}, Group c tok t items → ∃ init i, items = init ++ [i] ∧ (∀ j ∈ init, j.tokens = []) ∧ i.tokens = [tok] := by
    intro t items h
    induction h with
    | last a => exact ⟨[], _, rfl, by simp, rfl⟩
    | value a v => exact ⟨[], _, rfl, by simp, rfl⟩
    | switch a t items _ _ _ ih =>
      obtain ⟨init, i, rfl, h1, h2⟩ := ih
      exact ⟨_ :: init, i, rfl, by simpa using h1, h2⟩
  cases h with
  | additional f hf => rw [ha] at hf; cases hf
  | disguised lead name d hu hs => exact absurd hs hd
  | disguisedEq lead name v d hu hs => exact absurd hs hd
  | short _ _ _ _ _ _ _ _ hg => exact group hg
  | long => exact ⟨[], _, rfl, by simp, rfl⟩
  | longEq => exact ⟨[], _, rfl, by simp, rfl⟩
  | slash => exact ⟨[], _, rfl, by simp, rfl⟩

theorem completesAll_shape {is : List Item} {taken : List Str} {os : List Opt} (h : CompletesAll c is taken os) :
    ∀ {init : List Item} {i : Item}, is = init ++ [i] → (∀ j ∈ init, j.tokens = []) →
      ∃ oi l, os = oi ++ [l] ∧ (∀ o ∈ oi, o.originalTokens = []) ∧ l.originalTokens = i.tokens ++ taken := by
  induction h with
  | @one i taken o h =>
    intro init j e _
    cases init with
    | nil => cases e; exact ⟨[], o, rfl, by simp, completes_tokens h⟩
    | cons _ init =>
      rw [List.cons_append] at e
      injection e with _ e
      simp at e
  | @cons i o is taken os h t ih =>
    intro init j e hi
    cases init with
    | nil =>
      cases e
      cases t
    | cons x init =>
      rw [List.cons_append] at e
      injection e with e1 e2
      subst e1
      obtain ⟨oi, l, rfl, h1, h2⟩ := ih e2 fun q hq => hi q (by simp [hq])
      refine ⟨o :: oi, l, rfl, ?_, h2⟩
      intro q hq
      rcases List.mem_cons.1 hq with rfl | hq
      · rw [completes_tokens h, hi i (by simp)]; rfl
      · exact h1 q hq

theorem completesAll_mem' {is : List Item} {taken : List Str} {os : List Opt} (h : CompletesAll c is taken os) :
    ∀ i ∈ is, ∃ o ∈ os, ∃ taken', Completes c i taken' o := by
  induction h with
  | one h => rintro i hi; rw [List.mem_singleton.1 hi]; exact ⟨_, by simp, _, h⟩
  | cons h _ ih =>
    rintro i hi
    rcases List.mem_cons.1 hi with rfl | hi
    · exact ⟨_, by simp, _, h⟩
    · obtain ⟨o, ho, t, hc⟩ := ih i hi
      exact ⟨o, by simp [ho], t, hc⟩

theorem completes_kind {i : Item} {taken : List Str} {o : Opt} (h : Completes c i taken o) :
    (o.unregistered = true ↔ i.name ≠ [] ∧ Unknown c i.name) ∧ o.positionKey = -1 ∧ (o.unregistered = true → Unknown c o.stringKey) := by
  cases h with
  | nameless h => simp [h]
  | unknown h hn => simp [h, hn]
  | known d _ h hd =>
    refine ⟨⟨by simp, fun hh => (denotes_not_unknown hd hh.2).elim⟩, rfl, by simp⟩

theorem mixed_iff (hne : KeysNonempty c) {is : List Item} {taken : List Str} {os : List Opt} (h : CompletesAll c is taken os) :
    MixedGroup c is ↔ (∃ o ∈ os, o.unregistered = true) ∧ ∃ o ∈ os, Recognised o := by
  unfold MixedGroup Recognised
  constructor
  · rintro ⟨⟨i, hi, h1, h2⟩, ⟨j, hj, h3, h4⟩⟩
    obtain ⟨o, ho, _, hc⟩ := completesAll_mem' h i hi
    obtain ⟨q, hq, _, hc'⟩ := completesAll_mem' h j hj
    refine ⟨⟨o, ho, (completes_kind hc).1.2 ⟨h1, h2⟩⟩, q, hq, fun e => h3 ((completes_unnamed hne hc').1 e), ?_, (completes_kind hc').2.1⟩
    cases hb : q.unregistered with
    | false => rfl
    | true => exact absurd ((completes_kind hc').1.1 hb).2 h4
  · rintro ⟨⟨o, ho, h1⟩, ⟨q, hq, h2, h3, _⟩⟩
    obtain ⟨i, hi, _, hc⟩ := completesAll_mem h o ho
    obtain ⟨j, hj, _, hc'⟩ := completesAll_mem h q hq
    obtain ⟨h4, h5⟩ := (completes_kind hc).1.1 h1
    have h6 : j.name ≠ [] := fun e => h2 ((completes_unnamed hne hc').2 e)
    refine ⟨⟨i, hi, h4, h5⟩, j, hj, h6, fun hu => ?_⟩
    rw [(completes_kind hc').1.2 ⟨h6, hu⟩] at h3
    cases h3

/-! ### Blocks -/

/-- A piece of the command line: tokens, what they are read as, and what that becomes. -/
structure Block where
  tokens : List Str
  read : List Opt
  init : List Opt
  last : Opt

def Block.result (p : Block) : List Opt := p.init ++ [p.last]

structure Block.Sound (c : Cmdline) (p : Block) : Prop where
  reads : Front c p.tokens p.read
  gathers : Gathers c p.read p.result
  bare : ∀ o ∈ p.init, o.originalTokens = []
  original : p.last.originalTokens = p.tokens
  position : ∀ o ∈ p.result, o.positionKey = -1
  unknown : ∀ o ∈ p.result, o.unregistered = true → Unknown c o.stringKey
  idle : ¬ Recognised p.last → p.read = p.result
  kind : (p.init = [] ∧ p.last.stringKey = []) ∨ (∀ o ∈ p.result, o.stringKey ≠ []) ∧ ∃ o os, p.read = o :: os ∧ o.stringKey ≠ []

def Block.Mixed (p : Block) : Prop := (∃ o ∈ p.result, o.unregistered = true) ∧ ∃ o ∈ p.result, Recognised o

theorem front_loose_split (hne : KeysNonempty c) (ha : c.additional = none) (hd : ¬ Enabled c Style.allowLongDisguise) {ps : List Opt} (hp : ∀ p ∈ ps, Spec.Loose p) :
    ∀ {args : List Str} {more : List Opt}, Front c args (ps ++ more) → ∃ ts rest, args = ts ++ rest ∧ Front c ts ps ∧ Front c rest more ∧
      ps.flatMap (·.originalTokens) = ts ∧ ∀ tail, Unmixed c (ts ++ tail) ↔ Unmixed c tail := by
  induction ps with
  | nil => intro args more h; exact ⟨[], args, rfl, .nil, h, rfl, fun _ => Iff.rfl⟩
  | cons p ps ih =>
    intro args more h
    have ih := @ih fun q hq => hp q (by simp [hq])
    have hl := hp p (by simp)
    generalize e : p :: ps ++ more = zs at h
    cases h with
    | nil => cases e
    | @plain tok rest os h hd t =>
      cases e
      obtain ⟨ts, rest, rfl, h1, h2, h3, h4⟩ := ih t
      exact ⟨tok :: ts, rest, rfl, .plain h hd h1, h2, by rw [List.flatMap_cons, h3]; rfl, fun tail => (unmixed_plain h hd).trans (h4 tail)⟩
    | @option tok items taken os rest more' hs hc t =>
      have h1 : items.length = 1 := by
        rcases spells_unnamed hs with h | h
        · exfalso
          obtain ⟨o, os1, rfl⟩ : ∃ o os1, os = o :: os1 := by
            cases os with
            | nil => exact absurd (completesAll_length hc).symm (by simpa using spells_ne hs)
            | cons o os => exact ⟨_, _, rfl⟩
          simp only [List.cons_append, List.cons.injEq] at e
          obtain ⟨i, hi, t, hc⟩ := completesAll_mem hc p (by simp [e.1])
          exact h i hi ((completes_unnamed hne hc).1 hl.1)
        · exact h.1
      obtain ⟨i, o, rfl, rfl, hc1⟩ := completesAll_single hc h1
      cases e
      obtain ⟨ts, rest, rfl, h1, h2, h3, h4⟩ := ih t
      refine ⟨tok :: taken ++ ts, rest, by simp, .option hs hc h1, h2, ?_, ?_⟩
      · have e := completesAll_tokens hc
        rw [spells_tokens ha hd hs] at e
        rw [List.flatMap_cons, h3]
        simp at e
        rw [e]
      · intro tail
        rw [List.append_assoc, unmixed_option hs hc, h4]
        refine ⟨And.right, fun h => ⟨?_, h⟩⟩
        rintro ⟨⟨j, hj, hn, _⟩, _⟩
        rw [List.mem_singleton.1 hj] at hn
        exact hn ((completes_unnamed hne hc1).1 hl.1)

/-- A command line falls into blocks. -/
theorem blocks (hne : KeysNonempty c) (ha : c.additional = none) (hd : ¬ Enabled c Style.allowLongDisguise) :
    ∀ (n : Nat) (args : List Str) (os os' : List Opt), os.length ≤ n → Front c args os → Gathers c os os' →
      ∃ bl : List Block, (∀ p ∈ bl, p.Sound c) ∧ args = bl.flatMap (·.tokens) ∧ os' = bl.flatMap (·.result) ∧
        ∀ tail, Unmixed c (args ++ tail) ↔ (∀ p ∈ bl, ¬ p.Mixed) ∧ Unmixed c tail := by
  intro n
  induction n with
  | zero =>
    intro args os os' hn hr hg
    obtain rfl : os = [] := List.length_eq_zero_iff.1 (by omega)
    have e := gathers_nil hg
    generalize e0 : ([] : List Opt) = zs at hr
    cases hr with
    | nil => exact ⟨[], by simp, rfl, e, fun _ => by simp⟩
    | plain => cases e0
    | option hs hc t =>
      have hl := completesAll_length hc
      rw [eq_comm, List.append_eq_nil_iff] at e0
      rw [e0.1] at hl
      exact absurd (List.length_eq_zero_iff.1 hl.symm) (spells_ne hs)
  | succ n ih =>
    intro args os os' hn hr hg
    cases hr with
    | nil => exact ⟨[], by simp, rfl, gathers_nil hg, fun _ => by simp⟩
    | @plain tok rest os h h0 t =>
      obtain ⟨os2, rfl, hg2⟩ := gathers_cons_nil hg rfl
      obtain ⟨bl, h1, e1, e2, h2⟩ := ih rest os os2 (by simp at hn; omega) t hg2
      refine ⟨⟨[tok], [{ value := [tok], originalTokens := [tok] }], [], { value := [tok], originalTokens := [tok] }⟩ :: bl, ?_,
        by rw [List.flatMap_cons, ← e1]; rfl, by rw [List.flatMap_cons, ← e2]; rfl, ?_⟩
      · intro p hp
        rcases List.mem_cons.1 hp with rfl | hp
        · refine ⟨.plain h h0 .nil, .positional rfl .nil, nofun, rfl, ?_, ?_, fun _ => rfl, .inl ⟨rfl, rfl⟩⟩
          · intro o ho; rw [List.mem_singleton.1 ho]
          · intro o ho hu; rw [List.mem_singleton.1 ho] at hu; cases hu
        · exact h1 p hp
      · intro tail
        rw [List.cons_append, unmixed_plain h h0, h2]
        constructor
        · rintro ⟨h3, h4⟩
          refine ⟨?_, h4⟩
          intro p hp
          rcases List.mem_cons.1 hp with rfl | hp
          · rintro ⟨⟨o, ho, hu⟩, _⟩
            rw [List.mem_singleton.1 ho] at hu; cases hu
          · exact h3 p hp
        · rintro ⟨h3, h4⟩
          exact ⟨fun p hp => h3 p (by simp [hp]), h4⟩
    | @option tok items taken os rest more hs hc t =>
      obtain ⟨ii, il, hit, hib, hilt⟩ := spells_shape ha hd hs
      obtain ⟨oi, l, rfl, hoi, hlt⟩ := completesAll_shape hc hit hib
      rw [hilt] at hlt
      have hkinds : ∀ o ∈ oi ++ [l], o.positionKey = -1 ∧ (o.unregistered = true → Unknown c o.stringKey) := by
        intro o ho
        obtain ⟨i, _, _, hci⟩ := completesAll_mem hc o ho
        exact (completes_kind hci).2
      by_cases hk : ∀ o ∈ oi ++ [l], o.stringKey ≠ []
      · rw [List.append_assoc] at hg
        obtain ⟨ps, more', l', ys, rfl, hp, rfl, g1, g2, k1, k2, k3, k4, k5⟩ := gathers_row (fun o ho => hk o (by simp [ho])) (hk l (by simp)) hg
        obtain ⟨ts, rest', rfl, r1, r2, r3, r4⟩ := front_loose_split hne ha hd hp t
        obtain ⟨bl, h1, e1, e2, h2⟩ := ih rest' more' ys (by
            simp only [List.length_append, List.length_singleton] at hn; omega) r2 g2
        have hrd : (oi ++ [l]) ++ ps = oi ++ l :: ps := by simp
        have hres : ∀ o ∈ oi ++ [l'], o.stringKey ≠ [] ∧ o.positionKey = -1 ∧ (o.unregistered = true → Unknown c o.stringKey) := by
          intro o ho
          rcases List.mem_append.1 ho with ho | ho
          · exact ⟨hk o (by simp [ho]), hkinds o (by simp [ho])⟩
          · rw [List.mem_singleton.1 ho, k1, k2, k3]
            exact ⟨hk l (by simp), hkinds l (by simp)⟩
        refine ⟨⟨tok :: taken ++ ts, oi ++ l :: ps, oi, l'⟩ :: bl, ?_, by rw [List.flatMap_cons, ← e1]; simp, by rw [List.flatMap_cons, ← e2]; simp [Block.result], ?_⟩
        · intro p hp'
          rcases List.mem_cons.1 hp' with rfl | hp'
          · refine ⟨by rw [← hrd]; exact .option hs hc r1, g1, hoi, ?_, fun o ho => (hres o ho).2.1, fun o ho => (hres o ho).2.2, ?_, .inr ⟨fun o ho => (hres o ho).1, ?_⟩⟩
            · show l'.originalTokens = _
              rw [k4, hlt, r3]; simp
            · intro hnr
              have hu : l'.unregistered = true := by
                cases hb : l'.unregistered with
                | true => rfl
                | false => exact absurd ⟨(hres l' (by simp)).1, hb, (hres l' (by simp)).2.1⟩ hnr
              obtain ⟨rfl, rfl⟩ := k5 ((hkinds l (by simp)).2 (k2 ▸ hu))
              rfl
            · cases oi with
              | nil => exact ⟨l, ps, rfl, hk l (by simp)⟩
              | cons o oi => exact ⟨o, _, rfl, hk o (by simp)⟩
          · exact h1 p hp'
        · intro tail
          have hmix : Block.Mixed ⟨tok :: taken ++ ts, oi ++ l :: ps, oi, l'⟩ ↔ MixedGroup c items := by
            rw [mixed_iff hne hc]
            have hrec : Recognised l' ↔ Recognised l := by unfold Recognised; rw [k1, k2, k3]
            unfold Block.Mixed Block.result
            simp [or_and_right, exists_or, k2, hrec]
          rw [show tok :: taken ++ (ts ++ rest') ++ tail = tok :: taken ++ (ts ++ (rest' ++ tail)) by simp, unmixed_option hs hc, r4, h2, ← hmix]
          constructor
          · rintro ⟨h3, h4, h5⟩
            refine ⟨?_, h5⟩
            intro p hp
            rcases List.mem_cons.1 hp with rfl | hp
            · exact h3
            · exact h4 p hp
          · rintro ⟨h3, h4⟩
            exact ⟨h3 _ (by simp), fun p hp => h3 p (by simp [hp]), h4⟩
      · -- a nameless option
        have hsingle : items.length = 1 := by
          rcases spells_unnamed hs with hh | hh
          · refine absurd ?_ hk
            intro o ho e
            obtain ⟨i, hi, _, hci⟩ := completesAll_mem hc o ho
            exact hh i hi ((completes_unnamed hne hci).1 e)
          · exact hh.1
        obtain ⟨i, o, rfl, ho, hc1⟩ := completesAll_single hc hsingle
        obtain rfl : oi = [] := by
          have := congrArg List.length ho
          simp at this
          exact this
        obtain rfl : l = o := by simpa using ho
        have hkey : l.stringKey = [] := by
          refine Classical.byContradiction fun e => hk ?_
          simpa using e
        obtain ⟨os2, rfl, hg2⟩ := gathers_cons_nil hg hkey
        obtain ⟨bl, h1, e1, e2, h2⟩ := ih rest more os2 (by simp at hn; omega) t hg2
        have hiname : i.name = [] := (completes_unnamed hne hc1).1 hkey
        have hunreg : ¬ l.unregistered = true := fun e => ((completes_kind hc1).1.1 e).1 hiname
        refine ⟨⟨tok :: taken, [l], [], l⟩ :: bl, ?_, by rw [List.flatMap_cons, ← e1], by rw [List.flatMap_cons, ← e2]; rfl, ?_⟩
        · intro p hp
          rcases List.mem_cons.1 hp with rfl | hp
          · refine ⟨by simpa using Front.option hs hc .nil, .positional hkey .nil, nofun, hlt, ?_, ?_, fun _ => rfl, .inl ⟨rfl, hkey⟩⟩
            · intro o ho; rw [List.mem_singleton.1 ho]; exact (hkinds l (by simp)).1
            · intro o ho hu; rw [List.mem_singleton.1 ho] at hu; exact absurd hu hunreg
          · exact h1 p hp
        · intro tail
          rw [show tok :: taken ++ rest ++ tail = tok :: taken ++ (rest ++ tail) by simp, unmixed_option hs hc, h2]
          constructor
          · rintro ⟨_, h4, h5⟩
            refine ⟨?_, h5⟩
            intro p hp
            rcases List.mem_cons.1 hp with rfl | hp
            · rintro ⟨⟨o, ho, hu⟩, _⟩
              rw [List.mem_singleton.1 ho] at hu
              exact hunreg hu
            · exact h4 p hp
          · rintro ⟨h3, h4⟩
            refine ⟨?_, fun p hp => h3 p (by simp [hp]), h4⟩
            rintro ⟨⟨j, hj, hn, _⟩, _⟩
            rw [List.mem_singleton.1 hj] at hn
            exact hn hiname

/-- What `Labels` does to an option. -/
def flagged (c : Cmdline) (o : Opt) : Opt := { o with caseInsensitive := caseFlag c o.stringKey }

theorem labels_options {os : List Opt} (h : ∀ o ∈ os, o.stringKey ≠ []) (n : Nat) : Labels c n os (os.map (flagged c)) := by
  induction os with
  | nil => exact .nil
  | cons o os ih => exact .named (h o (by simp)) (ih fun q hq => h q (by simp [hq]))

theorem labels_options_eq {os res : List Opt} {n : Nat} (hl : Labels c n os res) (h : ∀ o ∈ os, o.stringKey ≠ []) : res = os.map (flagged c) := by
  induction hl with
  | nil => rfl
  | named _ _ ih => rw [ih fun q hq => h q (by simp [hq])]; rfl
  | positional _ hk => exact absurd hk (h _ (by simp))

theorem recognised_flagged (o : Opt) : Recognised (flagged c o) ↔ Recognised o := Iff.rfl

theorem Block.Sound.named {p : Block} (h : p.Sound c) (hl : p.last.stringKey ≠ []) : ∀ o ∈ p.result, o.stringKey ≠ [] :=
  (h.kind.resolve_left fun hh => hl hh.2).1

theorem Block.Sound.settled {p : Block} (h : p.Sound c) (hm : ¬ p.Mixed) :
    (Recognised p.last → ∀ o ∈ p.result, Recognised o) ∧ (¬ Recognised p.last → ∀ o ∈ p.result, ¬ Recognised o) := by
  constructor
  · intro hl o ho
    refine ⟨h.named hl.1 o ho, ?_, h.position o ho⟩
    cases hu : o.unregistered with
    | false => rfl
    | true => exact absurd ⟨⟨o, ho, hu⟩, p.last, by simp [Block.result], hl⟩ hm
  · intro hl o ho hr
    have hlast : p.last ∈ p.result := by simp [Block.result]
    have hk : p.last.stringKey ≠ [] := by
      rcases h.kind with ⟨h1, h2⟩ | h1
      · unfold Block.result at ho
        rw [h1] at ho
        rw [List.mem_singleton.1 ho] at hr
        exact hr.1
      · exact h1.1 _ hlast
    refine hm ⟨⟨p.last, hlast, ?_⟩, o, ho, hr⟩
    cases hu : p.last.unregistered with
    | true => rfl
    | false => exact absurd ⟨hk, hu, h.position _ hlast⟩ hl

theorem Block.unmixed {p : Block}
    (hr : (Recognised p.last → ∀ o ∈ p.result, Recognised o) ∧ (¬ Recognised p.last → ∀ o ∈ p.result, ¬ Recognised o)) : ¬ p.Mixed := by
  rintro ⟨⟨o, ho, hu⟩, q, hq, hrq⟩
  by_cases hl : Recognised p.last
  · have := (hr.1 hl o ho).2.1
    rw [hu] at this
    cases this
  · exact hr.2 hl q hq hrq

theorem bare_tokens {os : List Opt} (h : ∀ o ∈ os, o.originalTokens = []) : os.flatMap (·.originalTokens) = [] := by
  rw [List.flatMap_eq_nil_iff]
  exact h

theorem filter_tokens {p : Block} (h : p.Sound c) (q : Opt → Bool) :
    (p.result.filter q).flatMap (·.originalTokens) = if q p.last then p.tokens else [] := by
  unfold Block.result
  rw [List.filter_append, List.flatMap_append, bare_tokens fun o ho => h.bare o (List.mem_filter.1 ho).1, List.nil_append, List.filter_singleton]
  cases q p.last
  · rfl
  · simp [h.original]

theorem filter_tokens_all {bl : List Block} (h : ∀ p ∈ bl, p.Sound c) (q : Opt → Bool) :
    ((bl.flatMap (·.result)).filter q).flatMap (·.originalTokens) = (bl.filter fun p => q p.last).flatMap (·.tokens) := by
  induction bl with
  | nil => rfl
  | cons p bl ih =>
    rw [List.flatMap_cons, List.filter_append, List.flatMap_append, filter_tokens (h p (by simp)), ih fun r hr => h r (by simp [hr]), List.filter_cons]
    split <;> simp

theorem front_blocks {bl : List Block} (h : ∀ p ∈ bl, p.Sound c) : Front c (bl.flatMap (·.tokens)) (bl.flatMap (·.read)) := by
  induction bl with
  | nil => exact .nil
  | cons p bl ih => exact (h p (by simp)).reads.join (ih fun r hr => h r (by simp [hr]))

theorem gathers_blocks (hne : KeysNonempty c) {bl : List Block} (h : ∀ p ∈ bl, p.Sound c) (hl : ∀ p ∈ bl, p.last.stringKey ≠ []) :
    Gathers c (bl.flatMap (·.read)) (bl.flatMap (·.result)) ∧ ∀ o, (bl.flatMap (·.read)).head? = some o → o.stringKey ≠ [] := by
  induction bl with
  | nil => exact ⟨.nil, nofun⟩
  | cons p bl ih =>
    have hp := h p (by simp)
    obtain ⟨h1, h2⟩ := ih (fun r hr => h r (by simp [hr])) fun r hr => hl r (by simp [hr])
    obtain ⟨_, o, os, er, ho⟩ := hp.kind.resolve_left fun hh => hl p (by simp) hh.2
    refine ⟨gathers_append hp.gathers (reads_singles hne hp.reads.reads).1 h1 ?_, ?_⟩
    · intro o q _ hq hk
      exact absurd hk (h2 q hq)
    · intro o' ho'
      rw [List.flatMap_cons, er] at ho'
      cases ho'
      exact ho

/-- What is left of the blocks that end in a recognised option is what was recognised, if no block is mixed, and only then. -/
theorem blocks_recognised {bl : List Block} (h : ∀ p ∈ bl, p.Sound c) :
    ((bl.filter fun p => Recognised p.last).flatMap (·.result)).map (flagged c) = ((bl.flatMap (·.result)).filter (Recognised ·)).map (flagged c) ↔
      ∀ p ∈ bl, ¬ p.Mixed := by
  constructor
  · intro e
    have hall : ∀ p ∈ bl, Recognised p.last → ∀ o ∈ p.result, Recognised o := by
      intro p hp hl o ho
      have hm : flagged c o ∈ ((bl.filter fun p => Recognised p.last).flatMap (·.result)).map (flagged c) :=
        List.mem_map_of_mem (List.mem_flatMap.2 ⟨p, List.mem_filter.2 ⟨hp, by simpa using hl⟩, ho⟩)
      rw [e] at hm
      obtain ⟨q, hq, eq⟩ := List.mem_map.1 hm
      rw [← recognised_flagged (c := c), ← eq, recognised_flagged]
      simpa using (List.mem_filter.1 hq).2
    have hlen := congrArg List.length e
    rw [List.length_map, List.length_map] at hlen
    have key : ∀ bl : List Block, (∀ p ∈ bl, Recognised p.last → ∀ o ∈ p.result, Recognised o) →
        ((bl.filter fun p => Recognised p.last).flatMap (·.result)).length ≤ ((bl.flatMap (·.result)).filter (Recognised ·)).length ∧
        (((bl.filter fun p => Recognised p.last).flatMap (·.result)).length = ((bl.flatMap (·.result)).filter (Recognised ·)).length →
          ∀ p ∈ bl, ¬ Recognised p.last → ∀ o ∈ p.result, ¬ Recognised o) := by
      intro bl
      induction bl with
      | nil => intro _; exact ⟨Nat.le_refl _, fun _ => nofun⟩
      | cons p bl ih =>
        intro hall
        obtain ⟨h1, h2⟩ := ih fun r hr => hall r (by simp [hr])
        rw [List.flatMap_cons, List.filter_append, List.length_append]
        by_cases hl : Recognised p.last
        · have hself : p.result.filter (Recognised ·) = p.result := by
            rw [List.filter_eq_self]
            intro o ho
            simpa using hall p (by simp) hl o ho
          rw [hself, List.filter_cons_of_pos (by simpa using hl), List.flatMap_cons, List.length_append]
          refine ⟨by omega, fun e r hr => ?_⟩
          rcases List.mem_cons.1 hr with rfl | hr
          · exact fun hh => absurd hl hh
          · exact h2 (by omega) r hr
        · rw [List.filter_cons_of_neg (by simpa using hl)]
          refine ⟨by omega, fun e r hr => ?_⟩
          have h0 : (p.result.filter (Recognised ·)).length = 0 := by omega
          rcases List.mem_cons.1 hr with rfl | hr
          · intro _ o ho hro
            have : o ∈ r.result.filter (Recognised ·) := List.mem_filter.2 ⟨ho, by simpa using hro⟩
            rw [List.length_eq_zero_iff.1 h0] at this
            cases this
          · exact h2 (by omega) r hr
    have hrest := (key bl hall).2 hlen
    exact fun p hp => Block.unmixed ⟨hall p hp, hrest p hp⟩
  · intro hm
    congr 1
    induction bl with
    | nil => rfl
    | cons p bl ih =>
      have hs := (h p (by simp)).settled (hm p (by simp))
      rw [List.flatMap_cons, List.filter_append, ← ih (fun r hr => h r (by simp [hr])) fun r hr => hm r (by simp [hr])]
      by_cases hl : Recognised p.last
      · rw [List.filter_cons_of_pos (by simpa using hl), List.flatMap_cons]
        congr 1
        rw [eq_comm, List.filter_eq_self]
        intro o ho
        simpa using hs.1 hl o ho
      · rw [List.filter_cons_of_neg (by simpa using hl)]
        have : p.result.filter (Recognised ·) = [] := by
          rw [List.filter_eq_nil_iff]
          intro o ho
          simpa using hs.2 hl o ho
        rw [this, List.nil_append]

/-- What is left of the others is what was not recognised. -/
theorem blocks_forward {bl : List Block} (h : ∀ p ∈ bl, p.Sound c) (hm : ∀ p ∈ bl, ¬ p.Mixed) :
    (bl.flatMap (·.result)).filter (¬ Recognised ·) = (bl.filter fun p => ¬ Recognised p.last).flatMap (·.read) := by
  induction bl with
  | nil => rfl
  | cons p bl ih =>
    have hs := (h p (by simp)).settled (hm p (by simp))
    rw [List.flatMap_cons, List.filter_append, ih (fun r hr => h r (by simp [hr])) fun r hr => hm r (by simp [hr])]
    by_cases hl : Recognised p.last
    · rw [List.filter_cons_of_neg (p := fun p : Block => ¬ Recognised p.last) (by simpa using hl)]
      have : p.result.filter (¬ Recognised ·) = [] := by
        rw [List.filter_eq_nil_iff]
        intro o ho
        simpa using hs.1 hl o ho
      rw [this, List.nil_append]
    · rw [List.filter_cons_of_pos (p := fun p : Block => ¬ Recognised p.last) (by simpa using hl), List.flatMap_cons, (h p (by simp)).idle hl]
      congr 1
      rw [List.filter_eq_self]
      intro o ho
      simpa using hs.2 hl o ho

/-! ### Arguments behind the terminator -/

theorem labels_cons {o : Opt} {os R : List Opt} {n : Nat} (h : Labels c n (o :: os) R) :
    ∃ r R', R = r :: R' ∧ Labels c (if o.stringKey = [] then n + 1 else n) os R' := by
  cases h with
  | named hk t => exact ⟨_, _, rfl, by rw [if_neg hk]; exact t⟩
  | positional name hk hn t => exact ⟨_, _, rfl, by rw [if_pos hk]; exact t⟩

theorem labels_prefix {F ys zs R : List Opt} : ∀ {n : Nat}, Labels c n (F ++ ys) R → Labels c n (F ++ zs) R → ∃ m R', Labels c m ys R' ∧ Labels c m zs R' := by
  induction F generalizing R with
  | nil => intro n h h'; exact ⟨n, R, h, h'⟩
  | cons o F ih =>
    intro n h h'
    obtain ⟨r, R1, rfl, t⟩ := labels_cons h
    obtain ⟨_, _, e, t'⟩ := labels_cons h'
    cases e
    exact ih t t'

theorem labels_same : ∀ {b : List Str} {ys R : List Opt} {m : Nat}, Labels c m ys R → Labels c m (b.map protected_) R → (∀ o ∈ ys, o.stringKey ≠ [] → o.positionKey = -1) →
    (∀ o ∈ ys, o.stringKey = []) ∧ ys.map (fun o => (o.value, o.originalTokens)) = b.map fun t => ([t], [t]) := by
  intro b
  induction b with
  | nil =>
    intro ys R m h h' _
    cases h'
    cases h
    exact ⟨nofun, rfl⟩
  | cons t b ih =>
    intro ys R m h h' hw
    rw [List.map_cons] at h'
    generalize eq : protected_ t = q at h'
    cases h' with
    | named hk => subst eq; exact absurd rfl hk
    | @positional _ _ _ R' name _ _ t' =>
      subst eq
      generalize ex : ({ protected_ t with stringKey := name, positionKey := m, caseInsensitive := caseFlag c name } : Opt) = x at h
      cases h with
      | @named _ o os _ hk tt =>
        have h1 := congrArg Opt.positionKey ex
        have h2 := hw o (by simp) hk
        dsimp only at h1
        omega
      | @positional _ o os _ name' hk _ tt =>
        obtain ⟨h1, h2⟩ := ih tt t' fun q hq => hw q (by simp [hq])
        refine ⟨?_, ?_⟩
        · intro q hq
          rcases List.mem_cons.1 hq with rfl | hq
          · exact hk
          · exact h1 q hq
        · have e1 := congrArg Opt.value ex
          have e2 := congrArg Opt.originalTokens ex
          dsimp only [protected_] at e1 e2
          rw [List.map_cons, List.map_cons, h2, ← e1, ← e2]

theorem gathers_result_unnamed {ys ys' : List Opt} (h : Gathers c ys ys') (hk : ∀ o ∈ ys', o.stringKey = []) : ys = ys' := by
  induction h with
  | nil => rfl
  | positional _ _ ih => rw [ih fun q hq => hk q (by simp [hq])]
  | keep h _ _ _ => exact absurd (hk _ (by simp)) h
  | take _ h _ _ _ _ _ _ => exact absurd (hk _ (List.mem_cons_self ..)) h

theorem nameless_value (ha : c.additional = none) (hd : ¬ Enabled c Style.allowLongDisguise) {tok : Str} {i : Item} (h : Spells c tok [i]) (hi : i.name = []) :
    i.value ≠ [tok] := by
  generalize e : [i] = items at h
  cases h with
  | additional f hf => rw [ha] at hf; cases hf
  | disguised lead name d hu hs => exact absurd hs hd
  | disguisedEq lead name v d hu hs => exact absurd hs hd
  | short _ _ _ _ _ _ _ _ hg => exact absurd hi (group_named hg i (by rw [← e]; simp))
  | long name _ _ _ _ h0 => cases e; exact absurd hi h0
  | longEq name v _ _ ht =>
    cases e
    intro e
    injection e with e
    rw [ht] at e
    have := congrArg List.length e
    simp at this
    omega
  | slash => cases e; cases hi

theorem reads_all_plain (hne : KeysNonempty c) (ha : c.additional = none) (hd : ¬ Enabled c Style.allowLongDisguise) {b : List Str} {ys : List Opt} (h : Reads c b ys)
    (hk : ∀ o ∈ ys, o.stringKey = []) (e : ys.map (fun o => (o.value, o.originalTokens)) = b.map fun t => ([t], [t])) : ∀ t ∈ b, Plain c t ∧ t ≠ ['-', '-'] := by
  induction h with
  | nil => exact nofun
  | plain h h0 _ ih =>
    rw [List.map_cons, List.map_cons] at e
    injection e with _ e
    intro t ht
    rcases List.mem_cons.1 ht with rfl | ht
    · exact ⟨h, h0⟩
    · exact ih (fun q hq => hk q (by simp [hq])) e t ht
  | terminator =>
    have := congrArg List.length e
    simp at this
  | @option tok items taken os rest more hs hc t ih =>
    exfalso
    rcases spells_unnamed hs with h | h
    · have hl := completesAll_length hc
      cases os with
      | nil => exact spells_ne hs (List.length_eq_zero_iff.1 hl.symm)
      | cons o os =>
        obtain ⟨i, hi, _, hci⟩ := completesAll_mem hc o (by simp)
        exact h i hi ((completes_unnamed hne hci).1 (hk o (by simp)))
    · obtain ⟨i, o, rfl, rfl, hc1⟩ := completesAll_single hc h.1
      have hi := (completes_unnamed hne hc1).1 (hk o (by simp))
      cases hc1 with
      | nameless =>
        simp only [List.map_cons, List.cons_append, List.nil_append] at e
        injection e with e1 _
        injection e1 with e1 _
        exact nameless_value ha hd hs hi e1
      | unknown h => exact h hi
      | known _ _ h => exact h hi

theorem reads_plain_all {b : List Str} (h : ∀ t ∈ b, Plain c t ∧ t ≠ ['-', '-']) :
    Reads c b (b.map fun t => { value := [t], originalTokens := [t] }) := by
  induction b with
  | nil => exact .nil
  | cons t b ih => exact .plain (h t (by simp)).1 (h t (by simp)).2 (ih fun q hq => h q (by simp [hq]))

theorem labels_unprotected {F R : List Opt} {b : List Str} : ∀ {n : Nat}, Labels c n (F ++ b.map protected_) R →
    Labels c n (F ++ b.map fun t => { value := [t], originalTokens := [t] }) R := by
  induction F generalizing R with
  | nil =>
    rw [List.nil_append, List.nil_append]
    induction b generalizing R with
    | nil => intro n h; exact h
    | cons t b ih =>
      intro n h
      rw [List.map_cons] at h
      generalize eq : protected_ t = q at h
      cases h with
      | named hk => subst eq; exact absurd rfl hk
      | positional name hk hn t' => subst eq; exact .positional name rfl hn (ih t')
  | cons o F ih =>
    intro n h
    rw [List.cons_append] at h
    cases h with
    | named hk t => exact .named hk (ih t)
    | positional name hk hn t => exact .positional name hk hn (ih t)

theorem flatMap_protected (b : List Str) : (b.map protected_).flatMap (·.originalTokens) = b := by
  induction b with
  | nil => rfl
  | cons t b ih => rw [List.map_cons, List.flatMap_cons, ih]; rfl

theorem filter_length (os : List Opt) (q : Opt → Bool) : ((os.filter q).flatMap (·.originalTokens)).length ≤ (os.flatMap (·.originalTokens)).length := by
  induction os with
  | nil => exact Nat.le_refl _
  | cons o os ih =>
    rw [List.filter_cons]
    split <;> simp only [List.flatMap_cons, List.length_append] <;> omega

/-- What is known about a command line that has been read. -/
theorem taken_apart (hs : c.styleParser = none) (ha : c.additional = none) (hd : ¬ Enabled c Style.allowLongDisguise) (hne : KeysNonempty c)
    {args : List Str} (hlen : args.length < 2147483648) {res : List Opt} (h : c.run args = .ok res) :
    ∃ (bl : List Block) (b : List Str), (∀ p ∈ bl, p.Sound c) ∧ (Unmixed c args ↔ ∀ p ∈ bl, ¬ p.Mixed) ∧
      (∀ b', Behind c b' args → b' = b) ∧ (b ≠ [] → Behind c b args) ∧ Labels c 0 (bl.flatMap (·.result) ++ b.map protected_) res ∧
      ((bl.flatMap (·.result) ++ b.map protected_).flatMap (·.originalTokens)).length ≤ args.length := by
  obtain ⟨os, os', h1, h2, h3⟩ := (C61_grammar c hs hne args hlen res).1 h
  have tokens : ∀ {bl : List Block}, (∀ p ∈ bl, p.Sound c) → (bl.flatMap (·.result)).flatMap (·.originalTokens) = bl.flatMap (·.tokens) := by
    intro bl hb
    have := filter_tokens_all hb fun _ => true
    simpa using this
  rcases reads_split h1 with hf | ⟨a, b, xs, rfl, hu, hf, rfl⟩
  · obtain ⟨bl, hb, ea, eo, hun⟩ := blocks hne ha hd _ args os os' (Nat.le_refl _) hf h2
    refine ⟨bl, [], hb, ?_, ?_, fun h => absurd rfl h, by simpa [← eo] using h3, ?_⟩
    · have := hun []
      rw [List.append_nil] at this
      rw [this]
      exact ⟨And.left, fun h => ⟨h, .nil⟩⟩
    · intro b' hb'
      have := (hf.behind (y := []) (b := b')).1 (by simpa using hb')
      exact absurd this behind_nil
    · rw [List.map_nil, List.append_nil, tokens hb, ← ea]
      exact Nat.le_refl _
  · obtain ⟨xs', rfl, hg⟩ := gathers_protected h2 rfl
    obtain ⟨bl, hb, ea, eo, hun⟩ := blocks hne ha hd _ a xs xs' (Nat.le_refl _) hf hg
    refine ⟨bl, b, hb, ?_, ?_, ?_, by rw [← eo]; exact h3, ?_⟩
    · rw [hun]
      exact ⟨And.left, fun h => ⟨h, .terminator hu⟩⟩
    · exact fun b' hb' => (behind_terminator hu).1 (hf.behind.1 hb')
    · exact fun _ => hf.behind.2 (.here hu)
    · rw [List.flatMap_append, tokens hb, ← ea, flatMap_protected, List.length_append, List.length_append, List.length_cons]
      omega

theorem taken_position {bl : List Block} {b : List Str} (hb : ∀ p ∈ bl, p.Sound c) :
    ∀ o ∈ bl.flatMap (·.result) ++ b.map protected_, o.stringKey ≠ [] → o.positionKey = -1 := by
  intro o ho hk
  rcases List.mem_append.1 ho with ho | ho
  · obtain ⟨p, hp, ho⟩ := List.mem_flatMap.1 ho
    exact (hb p hp).position o ho
  · obtain ⟨t, _, rfl⟩ := List.mem_map.1 ho
    exact absurd rfl hk

theorem protected_not_recognised (b : List Str) : (b.map protected_).filter (Recognised ·) = [] ∧ (b.map protected_).filter (¬ Recognised ·) = b.map protected_ := by
  constructor
  · rw [List.filter_eq_nil_iff]
    intro o ho
    obtain ⟨t, _, rfl⟩ := List.mem_map.1 ho
    simp [Recognised, protected_]
  · rw [List.filter_eq_self]
    intro o ho
    obtain ⟨t, _, rfl⟩ := List.mem_map.1 ho
    simp [Recognised, protected_]

end Cmdline

open Cmdline

/-- **C89, exactly, what is recognised**: the tokens of the recognised options, without the rest of the command line, are read as the same options if and only if
no group of short options has both known and unknown ones in it. -/
theorem C89_recognised_iff (c : Cmdline) (hs : c.styleParser = none) (ha : c.additional = none) (hd : ¬ Enabled c Style.allowLongDisguise)
    (hne : ∀ d ∈ c.desc, ∀ name, name ≠ [] → reportedKey d name ≠ []) (args : List Str) (hlen : args.length < 2147483648) (res : List Opt) (h : c.run args = .ok res) :
    c.run (recognised res) = .ok (res.filter fun o => o.positionKey = -1 ∧ o.unregistered = false) ↔ Unmixed c args := by
  obtain ⟨bl, b, hb, hun, -, -, hl, htok⟩ := taken_apart hs ha hd hne hlen h
  obtain ⟨l1, l2⟩ := labels_recognised hl (taken_position hb) 0
  have hsub := filter_length (bl.flatMap (·.result) ++ b.map protected_) (Recognised ·)
  rw [← l2] at hsub
  rw [List.filter_append, (protected_not_recognised b).1, List.append_nil] at l1 l2
  have hG : ∀ p ∈ bl.filter (fun p => Recognised p.last), p ∈ bl ∧ p.last.stringKey ≠ [] := by
    intro p hp
    obtain ⟨h1, h2⟩ := List.mem_filter.1 hp
    exact ⟨h1, (of_decide_eq_true h2).1⟩
  have hrun : c.run (recognised res) = .ok (((bl.filter fun p => Recognised p.last).flatMap (·.result)).map (flagged c)) := by
    refine (C61_grammar c hs hne _ (by omega) _).2 ⟨_, _, ?_, (gathers_blocks hne (fun p hp => hb p (hG p hp).1) fun p hp => (hG p hp).2).1, labels_options ?_ 0⟩
    · rw [l2, filter_tokens_all hb]
      exact (front_blocks fun p hp => hb p (hG p hp).1).reads
    · intro o ho
      obtain ⟨p, hp, ho⟩ := List.mem_flatMap.1 ho
      exact (hb p (hG p hp).1).named (hG p hp).2 o ho
  have hres := labels_options_eq l1 fun o ho => (of_decide_eq_true (List.mem_filter.1 ho).2).1
  rw [hrun, hres, Except.ok.injEq, hun]
  exact blocks_recognised hb

/-- **C89, exactly, what is passed on**: on a command line without such groups, reading again what `collect_unrecognized` returns finds the same unknown options and
positional arguments, and nothing else, if and only if none of the arguments behind the terminator looks like an option, or is another terminator. -/
theorem C89_forwarded_iff (c : Cmdline) (hs : c.styleParser = none) (ha : c.additional = none) (hd : ¬ Enabled c Style.allowLongDisguise)
    (hne : ∀ d ∈ c.desc, ∀ name, name ≠ [] → reportedKey d name ≠ []) (args : List Str) (hlen : args.length < 2147483648) (hm : Unmixed c args) (res : List Opt)
    (h : c.run args = .ok res) :
    c.run (collectUnrecognized .includePositional res) = .ok (res.filter fun o => o.unregistered ∨ o.positionKey ≠ -1) ↔
      ∀ b, Behind c b args → ∀ t ∈ b, Plain c t ∧ t ≠ ['-', '-'] := by
  obtain ⟨bl, b, hb, hun, hbe, hbe', hl, htok⟩ := taken_apart hs ha hd hne hlen h
  have hm := hun.1 hm
  obtain ⟨l1, l2⟩ := labels_forward hl (taken_position hb)
  have hsub := filter_length (bl.flatMap (·.result) ++ b.map protected_) (¬ Recognised ·)
  rw [← l2] at hsub
  have htoks : collectUnrecognized .includePositional res = (bl.filter fun p => ¬ Recognised p.last).flatMap (·.tokens) ++ b := by
    rw [l2, List.filter_append, (protected_not_recognised b).2, List.flatMap_append, flatMap_protected, filter_tokens_all hb]
  rw [List.filter_append, (protected_not_recognised b).2, blocks_forward hb hm] at l1
  have hFb : ∀ p ∈ bl.filter (fun p => ¬ Recognised p.last), p ∈ bl ∧ ¬ Recognised p.last := by
    intro p hp
    obtain ⟨h1, h2⟩ := List.mem_filter.1 hp
    exact ⟨h1, of_decide_eq_true h2⟩
  have hfront := front_blocks fun p hp => hb p (hFb p hp).1
  have hF : ∀ o ∈ (bl.filter fun p => ¬ Recognised p.last).flatMap (·.read), o.stringKey = [] ∨ Unknown c o.stringKey := by
    intro o ho
    obtain ⟨p, hp, ho⟩ := List.mem_flatMap.1 ho
    obtain ⟨hp, hl⟩ := hFb p hp
    have hsp := hb p hp
    rw [hsp.idle hl] at ho
    by_cases hk : o.stringKey = []
    · exact .inl hk
    · right
      have hn := (hsp.settled (hm p hp)).2 hl o ho
      cases hu : o.unregistered with
      | true => exact hsp.unknown o ho hu
      | false => exact absurd ⟨hk, hu, hsp.position o ho⟩ hn
  have hgoal : (∀ b', Behind c b' args → ∀ t ∈ b', Plain c t ∧ t ≠ ['-', '-']) ↔ ∀ t ∈ b, Plain c t ∧ t ≠ ['-', '-'] := by
    constructor
    · intro h t ht
      exact h b (hbe' (List.ne_nil_of_mem ht)) t ht
    · intro h b' hb'
      rw [hbe b' hb']
      exact h
  rw [hgoal]
  constructor
  · intro hrun
    obtain ⟨os2, os2', r1, r2, r3⟩ := (C61_grammar c hs hne _ (by omega) _).1 hrun
    rw [htoks] at r1
    obtain ⟨ys, rfl, hy⟩ := hfront.det r1
    obtain ⟨ys', rfl, hg⟩ := (gathers_idle hF).1 r2
    obtain ⟨m, R, k1, k2⟩ := labels_prefix r3 l1
    have hw := gathers_named hg (reads_named hy)
    obtain ⟨e1, e2⟩ := labels_same k1 k2 hw
    cases gathers_result_unnamed hg e1
    exact reads_all_plain hne ha hd hy e1 e2
  · intro hplain
    refine (C61_grammar c hs hne _ (by omega) _).2 ⟨_, _, ?_, (gathers_idle hF).2 ⟨_, rfl, gathers_positional ?_⟩, labels_unprotected l1⟩
    · rw [htoks]
      exact hfront.append (reads_plain_all hplain)
    · intro o ho
      obtain ⟨t, _, rfl⟩ := List.mem_map.1 ho
      rfl

/-- **C89, exactly**: a command line falls into the part that is recognised and the part that is passed on if and only if no group of short options is mixed and no
argument that the terminator protects needs it. -/
theorem C89_iff (c : Cmdline) (hs : c.styleParser = none) (ha : c.additional = none) (hd : ¬ Enabled c Style.allowLongDisguise)
    (hne : ∀ d ∈ c.desc, ∀ name, name ≠ [] → reportedKey d name ≠ []) (args : List Str) (hlen : args.length < 2147483648) (res : List Opt) (h : c.run args = .ok res) :
    (c.run (collectUnrecognized .includePositional res) = .ok (res.filter fun o => o.unregistered ∨ o.positionKey ≠ -1) ∧
      c.run (recognised res) = .ok (res.filter fun o => o.positionKey = -1 ∧ o.unregistered = false)) ↔
    Unmixed c args ∧ ∀ b, Behind c b args → ∀ t ∈ b, Plain c t ∧ t ≠ ['-', '-'] := by
  rw [C89_recognised_iff c hs ha hd hne args hlen res h]
  constructor
  · rintro ⟨h1, h2⟩
    exact ⟨h2, (C89_forwarded_iff c hs ha hd hne args hlen h2 res h).1 h1⟩
  · rintro ⟨h1, h2⟩
    exact ⟨(C89_forwarded_iff c hs ha hd hne args hlen h1 res h).2 h2, h1⟩

theorem forwardExample_keys : ∀ d ∈ forwardExample.desc, ∀ name, name ≠ [] → reportedKey d name ≠ [] :=
  keys_nonempty _ (by intro d hd; simp only [forwardExample, List.mem_cons, List.not_mem_nil, or_false] at hd; rcases hd with rfl | rfl | rfl <;> decide)

/-- A group of known options, an unknown one, and an argument that does not need the terminator: the command line falls into two parts. -/
example : Unmixed forwardExample [Test.L "-vo", Test.L "d", Test.L "-x", Test.L "--", Test.L "e"] ∧
    ∀ b, Behind forwardExample b [Test.L "-vo", Test.L "d", Test.L "-x", Test.L "--", Test.L "e"] → ∀ t ∈ b, Plain forwardExample t ∧ t ≠ ['-', '-'] :=
  (C89_iff forwardExample rfl rfl (by unfold Enabled; decide) forwardExample_keys _ (by decide) _ rfl).1 ⟨rfl, rfl⟩

/-- `-v` is known, `-x` is not. -/
example : ¬ Unmixed forwardExample [Test.L "-vx"] := by
  intro h
  have := (C89_recognised_iff forwardExample rfl rfl (by unfold Enabled; decide) forwardExample_keys _ (by decide) _ rfl).2 h
  have e : forwardExample.run [] = .ok [] := rfl
  have := e.symm.trans this
  injection this with this
  exact absurd this (by decide)

/-- `--out` needs the terminator. -/
example : ∃ b, Behind forwardExample b [Test.L "--", Test.L "--out=a"] ∧ ∃ t ∈ b, ¬ (Plain forwardExample t ∧ t ≠ ['-', '-']) := by
  have hu : Unclaimed forwardExample ['-', '-'] := fun f hf => nomatch hf
  refine ⟨[Test.L "--out=a"], .here hu, _, List.mem_singleton.2 rfl, fun h => ?_⟩
  exact h.1.long (by unfold Enabled; decide) (by decide) (by decide)

end PO
