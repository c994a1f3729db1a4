import Verif.Spec.Exception
import Verif.Props.MessageLoops
/-
C134: what an exception says depends on what it was told last, and on nothing else.
-/
namespace PO
namespace Exception
open Spec

theorem _root_.PO.SMap.ext {α : Type} {a b : SMap α} (ha : a.Sorted) (hb : b.Sorted) (h : ∀ k, a.get? k = b.get? k) : a = b := by
  have hm : ∀ p, p ∈ a ↔ p ∈ b := by
    intro ⟨k, v⟩
    rw [← SMap.get?_eq_some ha, ← SMap.get?_eq_some hb, h]
  clear h
  induction a generalizing b with
  | nil =>
    cases b with
    | nil => rfl
    | cons y b => exact absurd ((hm y).2 (by simp)) (by simp)
  | cons x a ih =>
    cases b with
    | nil => exact absurd ((hm x).1 (by simp)) (by simp)
    | cons y b =>
      rw [SMap.Sorted, List.pairwise_cons] at ha hb
      have hxy : x = y := by
        rcases List.mem_cons.1 ((hm x).1 (by simp)) with e | e
        · exact e
        · rcases List.mem_cons.1 ((hm y).2 (by simp)) with e' | e'
          · exact e'.symm
          · exact absurd rfl (strLt_ne (strLt_trans (hb.1 x e) (ha.1 y e')))
      subst hxy
      congr 1
      refine ih ha.2 hb.2 fun p => ⟨fun hp => ?_, fun hp => ?_⟩
      · rcases List.mem_cons.1 ((hm p).1 (by simp [hp])) with e | e
        · subst e; exact absurd rfl (strLt_ne (ha.1 p hp))
        · exact e
      · rcases List.mem_cons.1 ((hm p).2 (by simp [hp])) with e | e
        · subst e; exact absurd rfl (strLt_ne (hb.1 p hp))
        · exact e

/-! ### The loops on `m_message` -/

theorem replace_eq (fuel : Nat) (o : Obj) (src dst : Str) :
    replace fuel o src dst = (replaceToken fuel o.message src dst).map fun m => { o with message := m } := by
  induction fuel generalizing o with
  | zero => unfold replace replaceToken; cases findSub o.message src <;> rfl
  | succ n ih =>
    unfold replace replaceToken
    cases findSub o.message src with
    | none => rfl
    | some pos => dsimp only; rw [ih]

theorem replaceDefaults_eq (fuel : Nat) (su : SMap Str) (ds : SMap (Str × Str)) (o : Obj) :
    replaceDefaults fuel su ds o = (applyDefaults fuel su ds o.message).map fun m => { o with message := m } := by
  induction ds generalizing o with
  | nil => rfl
  | cons d ds ih =>
    obtain ⟨k, src, dst⟩ := d
    have hc : (SMap.has su k = false ∨ (SMap.get? su k).getD [] = []) ↔ (SMap.get? su k).getD [] = [] := by
      unfold SMap.has
      cases h : SMap.get? su k <;> simp
    simp only [replaceDefaults, applyDefaults]
    by_cases h : (SMap.get? su k).getD [] = []
    · rw [if_pos (hc.2 h), if_pos h, replace_eq]
      cases replaceToken fuel o.message src dst with
      | none => rfl
      | some m => exact ih { o with message := m }
    · rw [if_neg (fun h' => h (hc.1 h')), if_neg h, ih]

theorem replaceAll_eq (fuel : Nat) (su : SMap Str) (o : Obj) :
    replaceAll fuel su o = (applySubsts fuel su o.message).map fun m => { o with message := m } := by
  induction su generalizing o with
  | nil => rfl
  | cons d ds ih =>
    obtain ⟨k, v⟩ := d
    simp only [replaceAll, applySubsts]
    rw [replace_eq]
    cases replaceToken fuel o.message ('%' :: k ++ ['%']) v with
    | none => rfl
    | some m => exact ih { o with message := m }

/-- The text that `what()` returns, without the object. -/
def saying (fuel : Nat) (o : Obj) (template : Str) : Option Str :=
  match optionName o, optionPrefix o with
  | some name, some pre =>
    let su := SMap.set (SMap.set o.subst (str% "canonical_option") name) (str% "prefix") pre
    match applyDefaults fuel su o.defaults template with
    | none => none
    | some m => applySubsts fuel su m
  | _, _ => none

theorem substitute_eq (fuel : Nat) (o : Obj) (t : Str) :
    substitute fuel o t = (saying fuel o t).map fun m => { o with message := m } := by
  unfold substitute saying
  have h1 : optionName { o with message := t } = optionName o := rfl
  have h2 : optionPrefix { o with message := t } = optionPrefix o := rfl
  dsimp only
  rw [h1, h2]
  cases optionName o with
  | none => rfl
  | some n =>
    cases optionPrefix o with
    | none => rfl
    | some p =>
      dsimp only
      rw [replaceDefaults_eq]
      cases applyDefaults fuel ((o.subst.set (str% "canonical_option") n).set (str% "prefix") p) o.defaults t with
      | none => rfl
      | some m => exact replaceAll_eq fuel _ { o with message := m }

/-- The template `what()` uses. -/
def fullTemplate (o : Obj) : Option Str :=
  match o.alternatives with
  | none => some o.template
  | some alts =>
    if o.style = Style.allowDashForShort ∨ o.style = Style.allowSlashForShort then some o.template
    else ambiguousTemplate alts o.template

theorem what_eq (fuel : Nat) (o : Obj) :
    what fuel o = (fullTemplate o).bind fun t => (saying fuel o t).map fun m => { o with message := m } := by
  unfold what fullTemplate
  cases ha : o.alternatives with
  | none => dsimp only; rw [substitute_eq]; simp only [Option.bind_some, ha]
  | some alts =>
    dsimp only
    by_cases h : o.style = Style.allowDashForShort ∨ o.style = Style.allowSlashForShort
    · rw [if_pos h, if_pos h, substitute_eq]; simp only [Option.bind_some, ha]
    · rw [if_neg h, if_neg h]
      cases ambiguousTemplate alts o.template with
      | none => rfl
      | some t => dsimp only; rw [substitute_eq]; simp only [Option.bind_some, ha]

/-- The object without the text kept from the last `what()`. -/
def core (o : Obj) : Obj := { o with message := [] }

theorem what_core (fuel : Nat) (o : Obj) : what fuel o = what fuel (core o) := by
  rw [what_eq, what_eq]; rfl

theorem core_what {fuel : Nat} {o o' : Obj} (h : what fuel o = some o') : core o' = core o := by
  rw [what_eq] at h
  cases ht : fullTemplate o with
  | none => rw [ht] at h; exact nomatch h
  | some t =>
    rw [ht] at h
    cases hs : saying fuel o t with
    | none => rw [Option.bind_some, hs] at h; exact nomatch h
    | some m => rw [Option.bind_some, hs] at h; injection h with h; rw [← h]; rfl

theorem whatSays_core (o : Obj) (m : Str) : WhatSays o m ↔ WhatSays (core o) m := by
  unfold WhatSays
  simp only [what_core _ o]

/-! ### The calls -/

/-- The object after a call, but for the text kept. -/
def after (o : Obj) : Call → Obj
  | .setSubstitute k v => setSubstitute o k v
  | .setDefault k src dst => setDefault o k src dst
  | .setPrefix s => setPrefix o s
  | .setOptionName n => setOptionName o n
  | .setOriginalToken t => setOriginalToken o t
  | .addContext n t s => addContext o n t s
  | .setTemplate t => { o with template := t }
  | .what => o

theorem core_setOptionName (o : Obj) (n : Str) : core (setOptionName o n) = setOptionName (core o) n := by
  unfold setOptionName
  cases h : o.named
  · rw [if_neg (by simp), if_neg (by simp [core, h])]
  · rw [if_pos (by simp), if_pos (by simp [core, h])]; rfl

theorem core_after (o : Obj) (c : Call) : core (after o c) = after (core o) c := by
  cases c with
  | setOptionName n => exact core_setOptionName o n
  | addContext n t s =>
    show core (setPrefix (setOriginalToken (setOptionName o n) t) s) = setPrefix (setOriginalToken (setOptionName (core o) n) t) s
    rw [← core_setOptionName]; rfl
  | _ => rfl

theorem runs_core {o o' : Obj} {cs : List Call} (h : Runs o cs o') : core o' = cs.foldl after (core o) := by
  induction h with
  | nil o => rfl
  | what hw _ ih => rw [ih, core_what hw]; rfl
  | setSubstitute _ ih => rw [ih]; rfl
  | setDefault _ ih => rw [ih]; rfl
  | setPrefix _ ih => rw [ih]; rfl
  | @setOptionName o n cs o' _ ih => rw [ih, core_setOptionName]; rfl
  | setOriginalToken _ ih => rw [ih]; rfl
  | @addContext o n t s cs o' _ ih => 
    rw [ih]; exact congrArg (List.foldl after · cs) (core_after o (.addContext n t s))
  | setTemplate _ ih => rw [ih]; rfl

theorem after_named (o : Obj) (c : Call) : (after o c).named = o.named ∧ (after o c).alternatives = o.alternatives := by
  cases c with
  | setOptionName n => show (setOptionName o n).named = _ ∧ (setOptionName o n).alternatives = _; unfold setOptionName; split <;> exact ⟨rfl, rfl⟩
  | addContext n t s =>
    show (setOptionName o n).named = _ ∧ (setOptionName o n).alternatives = _; unfold setOptionName; split <;> exact ⟨rfl, rfl⟩
  | _ => exact ⟨rfl, rfl⟩

theorem toldLast_cons {α : Type} (tells : Call → Option α) (c : Call) (cs : List Call) (d : α) :
    (toldLast tells (c :: cs)).getD d = (toldLast tells cs).getD ((tells c).getD d) := by
  unfold toldLast
  rw [List.filterMap_cons]
  cases h : tells c with
  | none => rfl
  | some x =>
    dsimp only
    rw [List.getLast?_cons]
    simp [Option.getD]

theorem toldLast_cons' {α : Type} (tells : Call → Option α) (c : Call) (cs : List Call) :
    toldLast tells (c :: cs) = (toldLast tells cs).or (tells c) := by
  unfold toldLast
  rw [List.filterMap_cons]
  cases h : tells c with
  | none => simp
  | some x => rw [List.getLast?_cons]; cases (List.filterMap tells cs).getLast? <;> rfl

theorem get?_after (o : Obj) (c : Call) (k : Str) :
    SMap.get? (after o c).subst k = (tellsText o.named k c).or (SMap.get? o.subst k) := by
  have hopt : ∀ n, SMap.get? (setOptionName o n).subst k
      = if o.named = true ∧ k = str% "option" then some n else SMap.get? o.subst k := by
    intro n
    unfold setOptionName
    cases o.named
    · simp
    · show SMap.get? (SMap.set o.subst (str% "option") n) k = _
      rw [SMap.get?_set]
      simp only [true_and, eq_comm]
  cases c with
  | setSubstitute k' v =>
    show SMap.get? (SMap.set o.subst k' v) k = _
    rw [SMap.get?_set]; dsimp only [tellsText]; split <;> rfl
  | setOptionName n =>
    show SMap.get? (setOptionName o n).subst k = _
    rw [hopt]; dsimp only [tellsText]; split <;> rfl
  | setOriginalToken t =>
    show SMap.get? (SMap.set o.subst (str% "original_token") t) k = _
    rw [SMap.get?_set]; dsimp only [tellsText]
    by_cases h : str% "original_token" = k
    · rw [if_pos h, if_pos h.symm]; rfl
    · rw [if_neg h, if_neg (Ne.symm h)]; rfl
  | addContext n t s =>
    show SMap.get? (SMap.set (setOptionName o n).subst (str% "original_token") t) k = _
    rw [SMap.get?_set, hopt]; dsimp only [tellsText]
    by_cases h : str% "original_token" = k
    · rw [if_pos h, if_pos h.symm]; rfl
    · rw [if_neg h, if_neg (Ne.symm h)]
      split <;> rfl
  | _ => rfl

theorem default_after (o : Obj) (c : Call) (k : Str) :
    SMap.get? (after o c).defaults k = (tellsDefault k c).or (SMap.get? o.defaults k) := by
  have hn : ∀ n, (setOptionName o n).defaults = o.defaults := by intro n; unfold setOptionName; split <;> rfl
  cases c with
  | setDefault k' src dst =>
    show SMap.get? (SMap.set o.defaults k' (src, dst)) k = _
    rw [SMap.get?_set]; dsimp only [tellsDefault]; split <;> rfl
  | setOptionName n => show SMap.get? (setOptionName o n).defaults k = _; rw [hn]; rfl
  | addContext n t s => show SMap.get? (setOptionName o n).defaults k = _; rw [hn]; rfl
  | _ => rfl

theorem style_after (o : Obj) (c : Call) : (after o c).style = (tellsStyle c).getD o.style := by
  cases c with
  | setOptionName n => show (setOptionName o n).style = _; unfold setOptionName; split <;> rfl
  | _ => rfl

theorem template_after (o : Obj) (c : Call) : (after o c).template = (tellsTemplate c).getD o.template := by
  cases c with
  | setOptionName n => show (setOptionName o n).template = _; unfold setOptionName; split <;> rfl
  | addContext n t s => show (setOptionName o n).template = _; unfold setOptionName; split <;> rfl
  | _ => rfl

theorem sorted_after (o : Obj) (c : Call) (h : o.subst.Sorted ∧ o.defaults.Sorted) :
    (after o c).subst.Sorted ∧ (after o c).defaults.Sorted := by
  have hn : ∀ n, (setOptionName o n).subst.Sorted ∧ (setOptionName o n).defaults.Sorted := by
    intro n; unfold setOptionName; split
    · exact ⟨SMap.sorted_set h.1 _ _, h.2⟩
    · exact h
  cases c with
  | setSubstitute k v => exact ⟨SMap.sorted_set h.1 _ _, h.2⟩
  | setDefault k s d => exact ⟨h.1, SMap.sorted_set h.2 _ _⟩
  | setOptionName n => exact hn n
  | setOriginalToken t => exact ⟨SMap.sorted_set h.1 _ _, h.2⟩
  | addContext n t s => exact ⟨SMap.sorted_set (hn n).1 _ _, (hn n).2⟩
  | _ => exact h

structure ToldTo (o o' : Obj) (cs : List Call) : Prop where
  alternatives : o'.alternatives = o.alternatives
  named : o'.named = o.named
  style : o'.style = (toldLast tellsStyle cs).getD o.style
  template : o'.template = (toldLast tellsTemplate cs).getD o.template
  text : ∀ k, SMap.get? o'.subst k = (toldLast (tellsText o.named k) cs).or (SMap.get? o.subst k)
  default : ∀ k, SMap.get? o'.defaults k = (toldLast (tellsDefault k) cs).or (SMap.get? o.defaults k)
  sorted : o.subst.Sorted ∧ o.defaults.Sorted → o'.subst.Sorted ∧ o'.defaults.Sorted

theorem told_foldl (o : Obj) (cs : List Call) : ToldTo o (cs.foldl after o) cs := by
  induction cs generalizing o with
  | nil => exact ⟨rfl, rfl, rfl, rfl, fun _ => rfl, fun _ => rfl, id⟩
  | cons c cs ih =>
    obtain ⟨h1, h2, h3, h4, h5, h6, h7⟩ := ih (after o c)
    refine ⟨h1.trans (after_named o c).2, h2.trans (after_named o c).1, ?_, ?_, fun k => ?_, fun k => ?_, fun hs => h7 (sorted_after o c hs)⟩
    · rw [List.foldl_cons, h3, style_after, toldLast_cons]
    · rw [List.foldl_cons, h4, template_after, toldLast_cons]
    · rw [List.foldl_cons, h5, get?_after, (after_named o c).1, toldLast_cons', Option.or_assoc]
    · rw [List.foldl_cons, h6, default_after, toldLast_cons', Option.or_assoc]

theorem sorted_construct (alts : Option (List Str)) (named : Bool) (t n k : Str) (s : Nat) :
    (construct alts named t n k s).subst.Sorted ∧ (construct alts named t n k s).defaults.Sorted :=
  ⟨show SMap.Sorted (SMap.set (SMap.set [] (str% "option") n) (str% "original_token") k) from
      SMap.sorted_set (SMap.sorted_set List.Pairwise.nil _ _) _ _,
    show SMap.Sorted substDefaults by decide⟩

theorem whatSays_iff (o : Obj) (m : Str) : WhatSays o m ↔ ∃ t, fullTemplate o = some t ∧ ∃ fuel, saying fuel o t = some m := by
  unfold WhatSays
  constructor
  · rintro ⟨fuel, o', h, rfl⟩
    rw [what_eq] at h
    cases ht : fullTemplate o with
    | none => rw [ht] at h; exact nomatch h
    | some t =>
      refine ⟨t, rfl, fuel, ?_⟩
      rw [ht, Option.bind_some] at h
      cases hs : saying fuel o t with
      | none => rw [hs] at h; exact nomatch h
      | some m => rw [hs] at h; injection h with h; rw [← h]
  · rintro ⟨t, ht, fuel, h⟩
    exact ⟨fuel, { o with message := m }, by rw [what_eq, ht, Option.bind_some, h]; rfl, rfl⟩

theorem saying_mono {f : Nat} (g : Nat) {o : Obj} {t m : Str} (h : saying f o t = some m) : saying (f + g) o t = some m := by
  unfold saying at h ⊢
  cases h1 : optionName o with
  | none => rw [h1] at h; exact nomatch h
  | some n =>
    cases h2 : optionPrefix o with
    | none => rw [h1, h2] at h; exact nomatch h
    | some p =>
      rw [h1, h2] at h
      dsimp only at h ⊢
      cases h3 : applyDefaults f ((o.subst.set (str% "canonical_option") n).set (str% "prefix") p) o.defaults t with
      | none => rw [h3] at h; exact nomatch h
      | some x =>
        rw [h3] at h
        rw [applyDefaults_mono g _ _ _ _ h3]
        exact applySubsts_mono g _ _ _ h

end Exception

open Spec Exception

/-- **C134**: what an exception says depends on nothing but its class and what it was told last: the last template, the last text for each
parameter, the last default for each parameter and the last prefix. In particular `what()` called before has no effect. -/
theorem C134_last (alternatives : Option (List Str)) (named : Bool) (template option token : Str) (style : Nat) (cs cs' : List Call)
    (o o' : Obj) (h : Runs (construct alternatives named template option token style) cs o)
    (h' : Runs (construct alternatives named template option token style) cs' o') (ha : ToldAlike named cs cs') (m : Str) :
    WhatSays o m ↔ WhatSays o' m := by
  have hs := sorted_construct alternatives named template option token style
  obtain ⟨a1, a2, a3, a4, a5, a6, a7⟩ := told_foldl (core (construct alternatives named template option token style)) cs
  obtain ⟨b1, b2, b3, b4, b5, b6, b7⟩ := told_foldl (core (construct alternatives named template option token style)) cs'
  rw [whatSays_core o, whatSays_core o', runs_core h, runs_core h']
  have hm : ∀ (x : Obj) (l : List Call), core (l.foldl after (core x)) = l.foldl after (core x) := by
    intro x l
    induction l generalizing x with
    | nil => rfl
    | cons c l ih => rw [List.foldl_cons, ← core_after]; exact ih _
  have : cs.foldl after (core (construct alternatives named template option token style))
      = cs'.foldl after (core (construct alternatives named template option token style)) := by
    rw [← hm, ← hm _ cs']
    unfold core at *
    rw [Obj.mk.injEq]
    refine ⟨a1.trans b1.symm, a2.trans b2.symm, ?_, ?_, ?_, ?_, rfl⟩
    · rw [a3, b3, ha.style]
    · exact SMap.ext (a7 hs).1 (b7 hs).1 fun k => by rw [a5, b5]; exact congrArg (Option.or · _) (ha.text k)
    · exact SMap.ext (a7 hs).2 (b7 hs).2 fun k => by rw [a6, b6]; exact congrArg (Option.or · _) (ha.default k)
    · rw [a4, b4, ha.template]
  rw [this]

/-- **C134**: and it says one thing only. -/
theorem C134_unique (o : Obj) (m m' : Str) (h : WhatSays o m) (h' : WhatSays o m') : m = m' := by
  obtain ⟨t, ht, f, hf⟩ := (whatSays_iff o m).1 h
  obtain ⟨t', ht', g, hg⟩ := (whatSays_iff o m').1 h'
  rw [ht] at ht'; injection ht' with ht'; subst ht'
  have h1 := saying_mono g hf
  have h2 := saying_mono f hg
  rw [Nat.add_comm g f, h1] at h2
  injection h2

/-- **C134**: asking for the message changes nothing: without the calls of `what()` the same calls can be made, and the exception says the same. -/
theorem C134_asking (alternatives : Option (List Str)) (named : Bool) (template option token : Str) (style : Nat) (cs : List Call)
    (o : Obj) (h : Runs (construct alternatives named template option token style) cs o) :
    ∃ o', Runs (construct alternatives named template option token style) (cs.filter (· ≠ .what)) o' ∧ ∀ m, WhatSays o m ↔ WhatSays o' m := by
  have ex : ∀ (l : List Call) (x : Obj), ∃ o', Runs x (l.filter (· ≠ .what)) o' := by
    intro l
    induction l with
    | nil => exact fun x => ⟨x, .nil x⟩
    | cons c l ih =>
      intro x
      cases c with
      | setSubstitute k v => obtain ⟨o', h⟩ := ih (setSubstitute x k v); exact ⟨o', .setSubstitute h⟩
      | setDefault k s d => obtain ⟨o', h⟩ := ih (setDefault x k s d); exact ⟨o', .setDefault h⟩
      | setPrefix s => obtain ⟨o', h⟩ := ih (setPrefix x s); exact ⟨o', .setPrefix h⟩
      | setOptionName n => obtain ⟨o', h⟩ := ih (setOptionName x n); exact ⟨o', .setOptionName h⟩
      | setOriginalToken t => obtain ⟨o', h⟩ := ih (setOriginalToken x t); exact ⟨o', .setOriginalToken h⟩
      | addContext n t s => obtain ⟨o', h⟩ := ih (addContext x n t s); exact ⟨o', .addContext h⟩
      | setTemplate t => obtain ⟨o', h⟩ := ih { x with template := t }; exact ⟨o', .setTemplate h⟩
      | what => obtain ⟨o', h⟩ := ih x; exact ⟨o', h⟩
  obtain ⟨o', h'⟩ := ex cs (construct alternatives named template option token style)
  have hf : ∀ {α : Type} (tells : Call → Option α), tells .what = none → toldLast tells cs = toldLast tells (cs.filter (· ≠ .what)) := by
    intro α tells hw
    unfold toldLast
    congr 1
    clear h h'
    induction cs with
    | nil => rfl
    | cons c l ih =>
      by_cases hc : c = .what
      · subst hc; rw [List.filter_cons_of_neg (by simp), List.filterMap_cons_none hw, ih]
      · rw [List.filter_cons_of_pos (by simpa using hc), List.filterMap_cons, List.filterMap_cons, ih]
  exact ⟨o', h', C134_last _ _ _ _ _ _ _ _ _ _ h h' ⟨fun k => hf _ rfl, fun k => hf _ rfl, hf _ rfl, hf _ rfl⟩⟩

/-- A call as the library makes it, on the exceptions of `Verif.Model.Err`. -/
def heeds (e : OptErr) : Call → OptErr
  | .setSubstitute k v => e.setSubst k v
  | .addContext n t s => e.addContext n t s
  | _ => e

/-- The calls the library makes while the exception is on its way, and `what()`. -/
def LibraryCall : Call → Prop
  | .setSubstitute _ _ => True
  | .addContext _ _ _ => True
  | .what => True
  | _ => False

/-- The object that the constructor of a class makes. -/
def objectOf (cls : ErrClass) (option token : Str) (style : Nat) : Obj :=
  construct (match cls with | .ambiguousOption alts => some alts | _ => none) (!cls.noOptionName) cls.template option token style

/-- **C134**: an exception of the library says what the exceptions of `Verif.Model.Err` (in which no text is kept) say. -/
theorem C134_library (cls : ErrClass) (option token : Str) (style : Nat) (cs : List Call) (hc : ∀ c ∈ cs, LibraryCall c) (o : Obj)
    (h : Runs (objectOf cls option token style) cs o) (m : Str) :
    WhatSays o m ↔ ∃ fuel, (cs.foldl heeds (OptErr.mk' cls option token style)).what fuel = some m := by
  -- what is alike in the two
  have key : ∀ (l : List Call), (∀ c ∈ l, LibraryCall c) → ∀ (x : Obj) (e : OptErr), x.style = e.style → x.subst = e.subst →
      (x.named = !e.cls.noOptionName) →
      (l.foldl after x).style = (l.foldl heeds e).style ∧ (l.foldl after x).subst = (l.foldl heeds e).subst ∧
        (l.foldl heeds e).cls = e.cls ∧ (l.foldl after x).defaults = x.defaults ∧ (l.foldl after x).template = x.template := by
    intro l
    induction l with
    | nil => exact fun _ x e h1 h2 _ => ⟨h1, h2, rfl, rfl, rfl⟩
    | cons c l ih =>
      intro hl x e h1 h2 h3
      have hl' : ∀ c ∈ l, LibraryCall c := fun c hc => hl c (List.mem_cons_of_mem _ hc)
      have hc := hl c List.mem_cons_self
      cases c with
      | setSubstitute k v =>
        exact ih hl' (setSubstitute x k v) (e.setSubst k v) h1 (by show SMap.set x.subst k v = SMap.set e.subst k v; rw [h2]) h3
      | addContext n t s =>
        have hx : (addContext x n t s).subst = (e.addContext n t s).subst ∧ (addContext x n t s).named = x.named ∧
            (addContext x n t s).defaults = x.defaults ∧ (addContext x n t s).template = x.template ∧ (e.addContext n t s).cls = e.cls := by
          unfold addContext OptErr.addContext setOptionName
          cases hn : e.cls.noOptionName
          · simp only [hn, Bool.not_false] at h3
            rw [if_pos h3, if_neg (by simp)]
            refine ⟨?_, rfl, rfl, rfl, rfl⟩
            show SMap.set (SMap.set x.subst _ n) _ t = SMap.set (SMap.set e.subst _ n) _ t
            rw [h2]
          · simp only [hn, Bool.not_true] at h3
            rw [if_neg (by rw [h3]; simp), if_pos rfl]
            refine ⟨?_, rfl, rfl, rfl, rfl⟩
            show SMap.set x.subst _ t = SMap.set e.subst _ t
            rw [h2]
        obtain ⟨x1, x2, x3, x4, x5⟩ := hx
        have := ih hl' (addContext x n t s) (e.addContext n t s) rfl x1 (by rw [x2, x5, h3])
        rw [x3, x4, x5] at this
        exact this
      | what => exact ih hl' x e h1 h2 h3
      | _ => exact hc.elim
  have hall : ∀ (l : List Call) (x : Obj), (l.foldl after x).alternatives = x.alternatives := by
    intro l x; exact (told_foldl x l).alternatives
  obtain ⟨k1, k2, k3, k4, k5⟩ := key cs hc (core (objectOf cls option token style)) (OptErr.mk' cls option token style) rfl rfl rfl
  have k6 := hall cs (core (objectOf cls option token style))
  rw [whatSays_core, runs_core h, whatSays_iff]
  generalize cs.foldl after (core (objectOf cls option token style)) = x at *
  generalize cs.foldl heeds (OptErr.mk' cls option token style) = e at *
  have hd : x.defaults = substDefaults := by rw [k4]; rfl
  have ht : x.template = cls.template := k5
  have hcls : e.cls = cls := k3
  have hp : optionPrefix x = e.canonicalPrefix := by unfold optionPrefix OptErr.canonicalPrefix; rw [k1]
  have hn : optionName x = e.canonicalName := by
    unfold optionName OptErr.canonicalName text OptErr.substD; rw [k1, k2, hp]
    rfl
  have hs : ∀ f t, saying f x t = e.substitute f t := by
    intro f t
    unfold saying OptErr.substitute
    rw [hn, hp, k2, hd]
    rfl
  have hw : ∀ f, e.what f = (fullTemplate x).bind fun t => e.substitute f t := by
    intro f
    unfold OptErr.what fullTemplate
    rw [k6, hcls, k1, ht]
    cases cls with
    | ambiguousOption alts =>
      dsimp only [core, objectOf, construct, setSubstitute, setDefault]
      by_cases h : e.style = Style.allowDashForShort ∨ e.style = Style.allowSlashForShort
      · rw [if_pos h, if_pos h]; rfl
      · rw [if_neg h, if_neg h]
        cases ambiguousTemplate alts (ErrClass.ambiguousOption alts).template <;> rfl
    | _ => rfl
  constructor
  · rintro ⟨t, ht, f, hf⟩
    exact ⟨f, by rw [hw, ht, Option.bind_some, ← hs]; exact hf⟩
  · rintro ⟨f, hf⟩
    rw [hw] at hf
    cases ht : fullTemplate x with
    | none => rw [ht] at hf; exact nomatch hf
    | some t => rw [ht, Option.bind_some, ← hs] at hf; exact ⟨t, rfl, f, hf⟩

/-- A bad value: asked before the option is known, and afterwards. -/
example : ∃ o, Runs (objectOf (.validation .invalidOptionValue) [] [] 0)
      [.setSubstitute (str% "value") (Test.L "x"), .what, .addContext (Test.L "size") (Test.L "--size=x") 1, .what] o ∧
    o.message = Test.L "the argument ('x') for option '--size' is invalid" ∧
    ∃ o1, Runs (objectOf (.validation .invalidOptionValue) [] [] 0) [.setSubstitute (str% "value") (Test.L "x"), .what] o1 ∧
      o1.message = Test.L "the argument ('x') for option is invalid" :=
  ⟨_, .setSubstitute (.what (fuel := 5) rfl (.addContext (.what (fuel := 5) rfl (.nil _)))), rfl,
    _, .setSubstitute (.what (fuel := 5) rfl (.nil _)), rfl⟩

/-- The second was told of a token, the first was not. -/
example : ToldAlike true
    [.setSubstitute (Test.L "file") (Test.L "a"), .setPrefix 1, .setOptionName (Test.L "x"), .what, .setTemplate (Test.L "%file%")]
    [.addContext (Test.L "y") (Test.L "t") 1, .setTemplate (Test.L "%file%"), .setSubstitute (Test.L "file") (Test.L "b"),
      .setOriginalToken (Test.L "t"), .setSubstitute (Test.L "option") (Test.L "x"), .setSubstitute (Test.L "file") (Test.L "a")] → False := by
  intro h
  have := h.text (Test.L "original_token")
  exact nomatch this

/-- A class without option name ignores the name; and only the last prefix counts. -/
example : ToldAlike false [.setOptionName (Test.L "x"), .what, .setPrefix 4] [.setPrefix 1, .setPrefix 4] :=
  ⟨fun _ => rfl, fun _ => rfl, rfl, rfl⟩

end PO
