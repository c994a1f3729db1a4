import Verif.Spec.Notify
import Verif.Props.Notify
/-
C116: notifiers that throw, and what they see.
-/
namespace PO
open Spec

section
variable {σ : Type} {h : Host σ} {env : Env}

/-- A record whose delivery has no undefined behaviour is told as it should be. -/
theorem told_iff {v : VarValue} {sem : ValueSemantic} (hs : v.semantic = some sem)
    (hk : (∃ zero, sem = untypedValue env zero) ∨ ∃ t : TypedValue, sem = t.toSemantic env)
    (hn : (sem.notify v.v).2 = none) (s s' : σ) (r : Option Fail) :
    h.perform (sem.notify v.v).1 s = (s', r) ↔ Told h env v s s' r := by
  constructor
  · intro hp
    rcases hk with ⟨zero, rfl⟩ | ⟨t, rfl⟩
    · have : h.perform [] s = (s', r) := hp
      cases this
      exact .untyped zero hs
    · have hn' : (t.notify v.v).2 = none := hn
      have hp' : h.perform (t.notify v.v).1 s = (s', r) := hp
      unfold TypedValue.notify at hn' hp'
      by_cases hc : (t.storeTo.isNone && t.notifier.isNone) = true
      · rw [if_pos hc] at hp'
        cases hp'
        simp only [Bool.and_eq_true, Option.isNone_iff_eq_none] at hc
        exact .unbound t hs hc.1 hc.2
      · rw [if_neg hc] at hp' hn'
        cases hv : v.v with
        | none => rw [hv] at hn'; cases hn'
        | some a =>
          rw [hv] at hn' hp'
          dsimp only at hn' hp'
          by_cases ht : a.type = t.type
          · rw [if_pos ht] at hp'
            cases hf : t.notifier with
            | none =>
              have e : (s', r) = (stored h t a s, none) := by
                rw [← hp', hf]
                unfold stored
                cases t.storeTo <;> rfl
              cases e
              exact .variable_ t hs hf a hv ht
            | some f =>
              have e : (s', r) = (h.call f a (stored h t a s)) := by
                rw [← hp', hf]
                unfold stored
                cases t.storeTo with
                | none =>
                  simp only [Option.map_none, Option.toList_none, List.nil_append, Option.map_some, Option.toList_some, Host.perform]
                  rcases h.call f a s with ⟨s1, _ | e⟩ <;> rfl
                | some p =>
                  simp only [Option.map_some, Option.toList_some, List.cons_append, List.nil_append, Host.perform]
                  rcases h.call f a (h.assign p a s) with ⟨s1, _ | e⟩ <;> rfl
              exact .notifier t hs f hf a hv ht s' r e.symm
          · rw [if_neg ht] at hn'; cases hn'
  · intro ht
    cases ht with
    | foreign hn => rw [hs] at hn; cases hn
    | untyped zero hu =>
      rw [hs] at hu
      cases hu
      rfl
    | unbound t hu h1 h2 =>
      rw [hs] at hu
      cases hu
      show h.perform (t.notify v.v).1 s = _
      unfold TypedValue.notify
      rw [if_pos (by rw [h1, h2]; rfl)]
      rfl
    | variable_ t hu h2 a hv hty =>
      rw [hs] at hu
      cases hu
      show h.perform (t.notify v.v).1 s = _
      unfold TypedValue.notify stored
      cases hst : t.storeTo with
      | none => rw [if_pos (by rw [h2]; rfl)]; rfl
      | some p =>
        rw [if_neg (by simp), hv]
        dsimp only
        rw [if_pos hty, h2]
        rfl
    | notifier t hu f hf a hv hty s' r hc =>
      rw [hs] at hu
      cases hu
      show h.perform (t.notify v.v).1 s = _
      unfold TypedValue.notify
      rw [if_neg (by rw [hf]; simp), hv]
      dsimp only
      rw [if_pos hty, hf]
      unfold stored at hc
      cases hst : t.storeTo with
      | none =>
        rw [hst] at hc
        simp only [Option.map_none, Option.toList_none, List.nil_append, Option.map_some, Option.toList_some, Host.perform]
        dsimp only at hc
        rw [hc]
        cases r <;> rfl
      | some p =>
        rw [hst] at hc
        simp only [Option.map_some, Option.toList_some, List.cons_append, List.nil_append, Host.perform]
        dsimp only at hc
        rw [hc]
        cases r <;> rfl

/-- The records that are of the library are of untyped or typed options. -/
def AllKnownRecords (env : Env) (l : List (Str × VarValue)) : Prop :=
  ∀ e ∈ l, e.2.semantic = none ∨ (∃ zero, e.2.semantic = some (untypedValue env zero)) ∨ ∃ t : TypedValue, e.2.semantic = some (t.toSemantic env)

theorem notifyLoop_told (l : SMap VarValue) (hk : AllKnownRecords env l) (hn : (VarMap.notifyLoop l).2 = none) (s s' : σ) (r : Option Fail) :
    h.notifyLoop l s = (s', r) ↔ (r = none ∧ ToldAll h env l s s') ∨
      ∃ before k v after s1 e, l = before ++ (k, v) :: after ∧ ToldAll h env before s s1 ∧ Told h env v s1 s' (some e) ∧ r = some e := by
  induction l generalizing s with
  | nil =>
    rw [Host.notifyLoop]
    constructor
    · intro e; cases e; exact .inl ⟨rfl, .nil _⟩
    · rintro (⟨rfl, ht⟩ | ⟨before, k, v, after, s1, e, he, -⟩)
      · cases ht; rfl
      · cases before <;> cases he
  | cons q rest ih =>
    obtain ⟨k, v⟩ := q
    have hk' : AllKnownRecords env rest := fun e he => hk e (List.mem_cons_of_mem _ he)
    have hkv := hk _ (List.mem_cons_self ..)
    have back : ∀ s1 : σ, (∀ s2 r', Told h env v s s2 r' ↔ (s1, none) = (s2, r')) → (VarMap.notifyLoop rest).2 = none →
        (h.notifyLoop rest s1 = (s', r) ↔ (r = none ∧ ToldAll h env ((k, v) :: rest) s s') ∨
      ∃ before k' v' after s1 e, (k, v) :: rest = before ++ (k', v') :: after ∧ ToldAll h env before s s1 ∧ Told h env v' s1 s' (some e) ∧ r = some e) := by
      intro s1 ht hn'
      rw [ih hk' hn' s1]
      constructor
      · rintro (⟨hr, ha⟩ | ⟨before, k', v', after, s2, e, he, ha, hv', hr⟩)
        · exact .inl ⟨hr, .cons ((ht _ _).2 rfl) ha⟩
        · exact .inr ⟨(k, v) :: before, k', v', after, s2, e, by rw [he]; rfl, .cons ((ht _ _).2 rfl) ha, hv', hr⟩
      · rintro (⟨hr, ha⟩ | ⟨before, k', v', after, s2, e, he, ha, hv', hr⟩)
        · cases ha with
          | cons h1 h2 =>
            cases (ht _ _).1 h1
            exact .inl ⟨hr, h2⟩
        · cases before with
          | nil =>
            cases he
            cases ha
            cases (ht _ _).1 hv'
          | cons q before =>
            cases he
            cases ha with
            | cons h1 h2 =>
              cases (ht _ _).1 h1
              exact .inr ⟨before, k', v', after, s2, e, rfl, h2, hv', hr⟩
    rw [Host.notifyLoop]
    rw [VarMap.notifyLoop] at hn
    cases hs : v.semantic with
    | none =>
      rw [hs] at hn
      refine back s (fun s2 r' => ⟨?_, ?_⟩) hn
      · intro ht
        cases ht with
        | foreign => rfl
        | untyped => rfl
        | unbound => rfl
        | variable_ _ hu => rw [hs] at hu; cases hu
        | notifier _ hu => rw [hs] at hu; cases hu
      · intro e; cases e; exact .foreign hs
    | some sem =>
      rw [hs] at hn
      dsimp only at hn
      have hkn : (∃ zero, sem = untypedValue env zero) ∨ ∃ t : TypedValue, sem = t.toSemantic env := by
        rcases hkv with h1 | ⟨zero, h1⟩ | ⟨t, h1⟩
        · exact nomatch hs.symm.trans h1
        · exact .inl ⟨zero, Option.some.inj (hs.symm.trans h1)⟩
        · exact .inr ⟨t, Option.some.inj (hs.symm.trans h1)⟩
      have hsn : (sem.notify v.v).2 = none := by
        rcases hm : sem.notify v.v with ⟨es, _ | f⟩
        · rfl
        · rw [hm] at hn; cases hn
      have hrn : (VarMap.notifyLoop rest).2 = none := by
        rcases hm : sem.notify v.v with ⟨es, _ | f⟩
        · rw [hm] at hn; exact hn
        · rw [hm] at hn; cases hn
      have key := told_iff (h := h) (env := env) hs hkn hsn s
      dsimp only
      rcases hp : h.perform (sem.notify v.v).1 s with ⟨s1, _ | e⟩
      · rw [hp] at key
        dsimp only
        rw [hsn]
        dsimp only
        exact back s1 (fun s2 r' => (key s2 r').symm) hrn
      · rw [hp] at key
        dsimp only
        constructor
        · intro e'
          cases e'
          exact .inr ⟨[], k, v, rest, s, e, rfl, .nil _, (key _ _).1 rfl, rfl⟩
        · rintro (⟨rfl, ha⟩ | ⟨before, k', v', after, s2, e', he, ha, hv', hr⟩)
          · cases ha with
            | cons h1 _ => exact nomatch (key _ _).2 h1
          · cases before with
            | nil =>
              cases he
              cases ha
              rw [hr]
              exact (key _ _).2 hv'
            | cons q before =>
              cases he
              cases ha with
              | cons h1 _ => cases (key _ _).2 h1

theorem notify_loop {m : VarMap} (hn : m.notify.2 = none) : VarMap.missingRequired m.map m.required = none ∧ (VarMap.notifyLoop m.map).2 = none := by
  unfold VarMap.notify at hn
  cases hm : VarMap.missingRequired m.map m.required with
  | some d => rw [hm] at hn; cases hn
  | none => rw [hm] at hn; exact ⟨rfl, hn⟩

/-- **C116.** If no required option is missing (and no value has a wrong type, C69), `notify` ends without an exception exactly if no notifier
throws, after it has told the program the value of every option, in the order of the names; -/
theorem C116_quiet (h : Host σ) (m : VarMap) (hk : KnownRecords env m) (hn : m.notify.2 = none) (s s' : σ) :
    h.notify m s = (s', none) ↔ ToldAll h env m.map s s' := by
  obtain ⟨h1, h2⟩ := notify_loop hn
  unfold Host.notify
  rw [h1]
  dsimp only
  rw [notifyLoop_told m.map hk h2]
  constructor
  · rintro (⟨-, h⟩ | ⟨_, _, _, _, _, _, _, _, _, e⟩)
    · exact h
    · cases e
  · exact fun h => .inl ⟨rfl, h⟩

/-- and with the exception of a notifier, if that is the first to throw: then the program has been told the values of the options with smaller
names, and this one, and of no others. -/
theorem C116_throws (h : Host σ) (srcs : List (Parsed × Bool)) (m : VarMap) (hm : History {} srcs m) (hk : KnownRecords env m)
    (hn : m.notify.2 = none) (s s' : σ) (e : Fail) :
    h.notify m s = (s', some e) ↔ ∃ before k v after s1, m.map = before ++ (k, v) :: after ∧
      (∀ q ∈ before, Earlier q.1 k) ∧ (∀ q ∈ after, Earlier k q.1) ∧ ToldAll h env before s s1 ∧ Told h env v s1 s' (some e) := by
  obtain ⟨h1, h2⟩ := notify_loop hn
  obtain ⟨-, -, hs⟩ := history_required srcs {} m hm ⟨by simp, by simp⟩
  unfold Host.notify
  rw [h1]
  dsimp only
  rw [notifyLoop_told m.map hk h2]
  constructor
  · rintro (⟨hr, -⟩ | ⟨before, k, v, after, s1, e', he, ha, hv, hr⟩)
    · cases hr
    · cases hr
      rw [he, SMap.Sorted, List.pairwise_append] at hs
      exact ⟨before, k, v, after, s1, he, fun q hq => (strLt_iff _ _).1 (hs.2.2 q hq _ (List.mem_cons_self ..)),
        fun q hq => (strLt_iff _ _).1 ((List.pairwise_cons.1 hs.2.1).1 q hq), ha, hv⟩
  · rintro ⟨before, k, v, after, s1, he, -, -, ha, hv⟩
    exact .inr ⟨before, k, v, after, s1, e, he, ha, hv, rfl⟩

/-- If a required option is missing, the program notices nothing but the exception. -/
theorem C116_missing (h : Host σ) (srcs : List (Parsed × Bool)) (m : VarMap) (hm : History {} srcs m)
    (hx : ∃ k n, RequiredAs srcs k n ∧ (m.get k).v = none) (s : σ) :
    ∃ k display, RequiredAs srcs k display ∧ (m.get k).v = none ∧ h.notify m s = (s, some (missingRequired display)) := by
  obtain ⟨k, display, hv, -, hd, -, hn⟩ := (C38_required srcs m hm).1 hx
  refine ⟨k, display, hd, hv, ?_⟩
  unfold VarMap.notify at hn
  unfold Host.notify
  cases hr : VarMap.missingRequired m.map m.required with
  | some d =>
    rw [hr] at hn
    injection hn with _ hn
    injection hn with hn
    rw [← hn]
  | none =>
    exfalso
    obtain ⟨h1, h2, -⟩ := history_required srcs {} m hm ⟨by simp, by simp⟩
    have hne : requiredNames srcs k ≠ [] := (requiredNames_ne srcs k).2 ⟨display, hd⟩
    have : m.required.get? k = some (longest [] (requiredNames srcs k)) := by
      rw [h1]
      unfold recorded
      rw [if_neg (fun h => hne h.2)]
      rfl
    have := (missingRequired_none _ _).1 hr _ ((SMap.get?_eq_some h2 _ _).1 this)
    unfold VarMap.get at hv
    rw [hv] at this
    cases this

theorem storeTo_unique {t t' : TypedValue} (he : t.toSemantic env = t'.toSemantic env) {p : Nat} (hp : t'.storeTo = some p) :
    t.storeTo = some p := by
  have hn : t.notify = t'.notify := congrArg ValueSemantic.notify he
  obtain ⟨a, ha⟩ : ∃ a : AVal, a.type = t'.type := by
    cases ht : t'.type with
    | scalar st => cases st with
      | bool => exact ⟨.scalar (.bool true), rfl⟩
      | str => exact ⟨.scalar (.str []), rfl⟩
      | wstr => exact ⟨.scalar (.wstr []), rfl⟩
      | lex n => exact ⟨.scalar (.lex n 0), rfl⟩
    | vector st => exact ⟨.vector st [], rfl⟩
    | optional st => exact ⟨.optional st none, rfl⟩
  have h1 := congrFun hn (some a)
  unfold TypedValue.notify at h1
  rw [if_neg (show ¬ (t'.storeTo.isNone && t'.notifier.isNone) = true by rw [hp]; simp)] at h1
  dsimp only at h1
  rw [if_pos ha, hp] at h1
  split at h1
  · simp at h1
  · split at h1
    · cases hs : t.storeTo with
      | none =>
        rw [hs] at h1
        cases hf : t.notifier <;> rw [hf] at h1 <;> simp at h1
      | some q =>
        rw [hs] at h1
        simp at h1
        rw [h1.1]
    · simp at h1

/-- What telling one value does to the variables. -/
theorem told_memory {mem : σ → Nat → Option AVal} (hM : Memory h mem) {v : VarValue} {s s' : σ} {r : Option Fail} (ht : Told h env v s s' r) (p : Nat) :
    (WritesTo env v p → mem s' p = v.v) ∧ (¬ WritesTo env v p → mem s' p = mem s p) := by
  have st : ∀ t : TypedValue, v.semantic = some (t.toSemantic env) → ∀ a, v.v = some a →
      (WritesTo env v p → mem (stored h t a s) p = v.v) ∧ (¬ WritesTo env v p → mem (stored h t a s) p = mem s p) := by
    intro t hs a ha
    refine ⟨?_, ?_⟩
    · rintro ⟨t', hs', hp⟩
      have : t.storeTo = some p := storeTo_unique (env := env) (by rw [hs] at hs'; exact Option.some.inj hs') hp
      unfold stored
      rw [this, ha]
      exact hM.written p a s
    · intro hw
      unfold stored
      cases hst : t.storeTo with
      | none => rfl
      | some q =>
        refine hM.others q a s p ?_
        rintro rfl
        exact hw ⟨t, hs, hst⟩
  cases ht with
  | foreign hn => exact ⟨fun ⟨t, hs, _⟩ => (by rw [hn] at hs; cases hs), fun _ => rfl⟩
  | untyped zero hu =>
    refine ⟨?_, fun _ => rfl⟩
    rintro ⟨t, hs, hp⟩
    exfalso
    rw [hu] at hs
    have := congrArg (fun sem => ValueSemantic.notify sem none) (Option.some.inj hs)
    simp only [untypedValue, TypedValue.toSemantic, TypedValue.notify, hp] at this
    simp at this
  | unbound t hu h1 h2 =>
    refine ⟨?_, fun _ => rfl⟩
    rintro ⟨t', hs, hp⟩
    rw [hu] at hs
    rw [storeTo_unique (env := env) (Option.some.inj hs) hp] at h1
    cases h1
  | variable_ t hs h2 a hv hty => exact st t hs a hv
  | notifier t hs f hf a hv hty _ _ hc =>
    have : mem s' = mem (stored h t a s) := by
      have := hM.untouched f a (stored h t a s)
      rw [hc] at this
      exact this
    rw [this]
    exact st t hs a hv

theorem toldAll_memory {mem : σ → Nat → Option AVal} (hM : Memory h mem) {l : List (Str × VarValue)} {s s' : σ} (ht : ToldAll h env l s s') (p : Nat)
    (hl : ∀ q ∈ l, ¬ WritesTo env q.2 p) : mem s' p = mem s p := by
  induction ht with
  | nil => rfl
  | cons hv _ ih =>
    rw [ih (fun q hq => hl q (List.mem_cons_of_mem _ hq))]
    exact (told_memory hM hv p).2 (hl _ (List.mem_cons_self ..))

theorem toldAll_written {mem : σ → Nat → Option AVal} (hM : Memory h mem) {l : List (Str × VarValue)} {s s' : σ} (ht : ToldAll h env l s s') (p : Nat)
    (hd : l.Pairwise fun x y => ∀ p, ¬ (WritesTo env x.2 p ∧ WritesTo env y.2 p)) (q : Str × VarValue) (hq : q ∈ l) (hw : WritesTo env q.2 p) :
    mem s' p = q.2.v := by
  induction ht with
  | nil => cases hq
  | @cons k v rest _ _ _ hv hr ih =>
    rw [List.pairwise_cons] at hd
    rcases List.mem_cons.1 hq with rfl | hq
    · rw [toldAll_memory hM hr p (fun q hq' h => hd.1 q hq' p ⟨hw, h⟩)]
      exact (told_memory hM hv p).1 hw
    · exact ih hd.2 hq

/-- What a notifier sees when it is called: the variables of its own option and of those with smaller names have their final values, those with
larger names are as before. -/
theorem C116_sees {mem : σ → Nat → Option AVal} (hM : Memory h mem) (m : VarMap)
    (hd : m.map.Pairwise fun x y => ∀ p, ¬ (WritesTo env x.2 p ∧ WritesTo env y.2 p))
    (before after : List (Str × VarValue)) (k : Str) (v : VarValue) (he : m.map = before ++ (k, v) :: after) (s s1 : σ)
    (ha : ToldAll h env before s s1) (t : TypedValue) (hs : v.semantic = some (t.toSemantic env)) (a : AVal) (hv : v.v = some a) :
    (∀ p, WritesTo env v p → mem (stored h t a s1) p = v.v) ∧
    (∀ q ∈ before, ∀ p, WritesTo env q.2 p → mem (stored h t a s1) p = q.2.v) ∧
    (∀ q ∈ after, ∀ p, WritesTo env q.2 p → mem (stored h t a s1) p = mem s p) := by
  rw [he, List.pairwise_append, List.pairwise_cons] at hd
  obtain ⟨hd1, ⟨hd2, -⟩, hd3⟩ := hd
  have keep : ∀ p, ¬ WritesTo env v p → mem (stored h t a s1) p = mem s1 p := by
    intro p hw
    unfold stored
    cases hst : t.storeTo with
    | none => rfl
    | some q =>
      refine hM.others q a s1 p ?_
      rintro rfl
      exact hw ⟨t, hs, hst⟩
  refine ⟨?_, ?_, ?_⟩
  · rintro p ⟨t', hs', hp⟩
    have : t.storeTo = some p := storeTo_unique (env := env) (by rw [hs] at hs'; exact Option.some.inj hs') hp
    unfold stored
    rw [this, hv]
    exact hM.written p a s1
  · intro q hq p hw
    rw [keep p (fun h => hd3 q hq _ (List.mem_cons_self ..) p ⟨hw, h⟩)]
    exact toldAll_written hM ha p hd1 q hq hw
  · intro q hq p hw
    rw [keep p (fun h => hd2 q hq p ⟨h, hw⟩)]
    exact toldAll_memory hM ha p fun x hx h => hd3 x hx q (List.mem_cons_of_mem _ hq) p ⟨h, hw⟩

end

/-! ### Example -/

namespace Ex

/-- A program with variables and a notifier that refuses numbers above 10. -/
def host : Host ((Nat → Option AVal) × List AVal) where
  assign p a s := (fun q => if q = p then some a else s.1 q, s.2)
  call _ a s := ((s.1, s.2 ++ [a]),
    match a with
    | .scalar (.lex _ n) => if n > 10 then some .badAnyCast else none
    | _ => none)

theorem host_memory : Memory host fun s => s.1 where
  written p a s := by simp [host]
  others p a s q hq := by simp [host, hq]
  untouched f a s := rfl

/-- Numbers are written with strokes. -/
def strokes : Env := { Test.env with lex := fun _ s => some s.length }

def number (addr : Nat) : ValueSemantic := TypedValue.toSemantic strokes { type := .scalar (.lex 0), storeTo := some addr, notifier := some 7 }

def numbers : Parsed :=
  { desc := [Test.od "a" (number 0), Test.od "b" (number 1), Test.od "c" (number 2)], options := [o "c" ["|||"], o "b" ["|||||||||||"], o "a" ["||"]] }

/-- The notifier refuses `b`: `a` and `b` are stored and told, `c` is not. -/
example : (store numbers {}).2 = none ∧ (store numbers {}).1.notify.2 = none ∧
    (host.notify (store numbers {}).1 (fun _ => none, [])).2 = some .badAnyCast ∧
    (host.notify (store numbers {}).1 (fun _ => none, [])).1.2 = [.scalar (.lex 0 2), .scalar (.lex 0 11)] ∧
    (host.notify (store numbers {}).1 (fun _ => none, [])).1.1 1 = some (.scalar (.lex 0 11)) ∧
    (host.notify (store numbers {}).1 (fun _ => none, [])).1.1 2 = none := by
  refine ⟨?_, ?_, ?_, ?_, ?_, ?_⟩ <;> decide

end Ex
end PO
