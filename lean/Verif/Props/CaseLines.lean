import Verif.Spec.CaseLines
import Verif.Props.Guess
import Verif.Lemmas.Raw
import Verif.Tests.Util
/-
C149: letter case on the command line.
-/
namespace PO
namespace CaseLines
open Cmdline

theorem fold_refl (s : Str) : SameUpToCase s s := rfl
theorem _root_.PO.SameUpToCase.symm' {a b : Str} (h : SameUpToCase a b) : SameUpToCase b a := Eq.symm h

theorem fold_length {a b : Str} (h : SameUpToCase a b) : a.length = b.length := by simpa using congrArg List.length h

theorem fold_nil {a b : Str} (h : SameUpToCase a b) : a = [] ↔ b = [] := by
  rw [← List.length_eq_zero_iff, ← List.length_eq_zero_iff, fold_length h]

theorem fold_drop {a b : Str} (h : SameUpToCase a b) (n : Nat) : SameUpToCase (a.drop n) (b.drop n) := by
  unfold SameUpToCase at *; rw [List.map_drop, List.map_drop, h]

theorem fold_take {a b : Str} (h : SameUpToCase a b) (n : Nat) : SameUpToCase (a.take n) (b.take n) := by
  unfold SameUpToCase at *; rw [List.map_take, List.map_take, h]

theorem fold_substr {a b : Str} (h : SameUpToCase a b) (p n : Nat) : SameUpToCase (substr a p n) (substr b p n) := fold_take (fold_drop h p) n

theorem fold_cons {x y : Char} {a b : Str} (h : SameUpToCase (x :: a) (y :: b)) : x.toLower = y.toLower ∧ SameUpToCase a b := by
  simpa [SameUpToCase] using h

/-- Characters before the letters are the same. -/
theorem char_same {x y z : Char} (hz : z.toNat < 65) (h : x.toLower = y.toLower) : x = z ↔ y = z := by
  have hz' : z.toLower = z := by
    unfold Char.toLower
    rw [dif_neg]
    rintro ⟨h1, _⟩
    have : 65 ≤ z.toNat := h1
    omega
  constructor
  · rintro rfl; rw [hz'] at h; exact Guess.toLower_fixed (by omega) h.symm
  · rintro rfl; rw [hz'] at h; exact Guess.toLower_fixed (by omega) h

theorem fold_get {a b : Str} (h : SameUpToCase a b) {z : Char} (hz : z.toNat < 65) (i : Nat) : a[i]? = some z ↔ b[i]? = some z := by
  induction a generalizing b i with
  | nil =>
    cases b with
    | nil => exact Iff.rfl
    | cons y b => cases h
  | cons x a ih =>
    cases b with
    | nil => cases h
    | cons y b =>
      obtain ⟨h1, h2⟩ := fold_cons h
      cases i with
      | zero => simpa using char_same hz h1
      | succ i => simpa using ih h2 i

theorem fold_find {a b : Str} (h : SameUpToCase a b) : findChar a '=' = findChar b '=' := by
  induction a generalizing b with
  | nil =>
    cases b with
    | nil => rfl
    | cons y b => cases h
  | cons x a ih =>
    cases b with
    | nil => cases h
    | cons y b =>
      obtain ⟨h1, h2⟩ := fold_cons h
      rw [findChar, findChar, ih h2]
      by_cases hx : x = '='
      · rw [if_pos hx, if_pos ((char_same (by decide) h1).1 hx)]
      · rw [if_neg hx, if_neg fun hy => hx ((char_same (by decide) h1).2 hy)]

theorem kind_addContext (f : Fail) (a b : Str) (n : Nat) : kind (f.addContext a b n) = kind f := by
  cases f with
  | opt e =>
    have h : (e.addContext a b n).cls = e.cls := by
      unfold OptErr.addContext OptErr.setSubst
      dsimp only
      split <;> rfl
    unfold Fail.addContext kind
    dsimp only
    rw [h]
  | _ => rfl

theorem kind_ambiguous (a b : List Str) : kind (errAmbiguous a) = kind (errAmbiguous b) := rfl

variable {c : Cmdline} {V : Str → Str → Prop}

/-- Lookups of names that differ in letter case. -/
theorem lookup_fold (hl : active c.style Style.longCaseInsensitive = true) (hs : active c.style Style.shortCaseInsensitive = true) {a b : Str}
    (h : SameUpToCase a b) : (∃ r, c.lookup a = .ok r ∧ c.lookup b = .ok r) ∨
      ∃ x y, c.lookup a = .error (errAmbiguous x) ∧ c.lookup b = .error (errAmbiguous y) := by
  have he : ∀ n f, c.lookup n = .error f → ∃ x, f = errAmbiguous x := by
    intro n f hf
    unfold Cmdline.lookup findNothrow at hf
    dsimp only at hf
    split at hf
    · exact ⟨_, by cases hf; rfl⟩
    · split at hf
      · exact ⟨_, by cases hf; rfl⟩
      · cases hf
  have hiff : ∀ r, c.lookup a = .ok r ↔ c.lookup b = .ok r := by
    unfold Cmdline.lookup
    rw [hl, hs]
    exact C03_case_insensitive_lookup c.desc a b _ h
  cases ha : c.lookup a with
  | ok r => exact .inl ⟨r, rfl, (hiff r).1 ha⟩
  | error f =>
    cases hb : c.lookup b with
    | ok r => rw [(hiff r).2 hb] at ha; cases ha
    | error g =>
      obtain ⟨x, rfl⟩ := he _ _ ha
      obtain ⟨y, rfl⟩ := he _ _ hb
      exact .inr ⟨x, y, rfl, rfl⟩

/-- Tokens, with how values may differ. -/
structure Tok (c : Cmdline) (V : Str → Str → Prop) (t t' : Str) : Prop extends Token c t t' where
  whole : V t t'
  after : ∀ p, findChar t '=' = some p → V (t.drop (p + 1)) (t'.drop (p + 1))
  dos : t.head? = some '/' → V (t.drop 2) (t'.drop 2)

/-- Options before (`F = False`) and after they are finished. -/
structure Opts (c : Cmdline) (V : Str → Str → Prop) (F : Prop) (o o' : Opt) : Prop where
  key : SameUpToCase o.stringKey o'.stringKey
  own : F → o.stringKey = o'.stringKey ∨ o.unregistered = true ∨ Wild c
  position : o.positionKey = o'.positionKey
  unregistered : o.unregistered = o'.unregistered
  caseFlag : o.caseInsensitive = o'.caseInsensitive
  value : List.Forall₂ V o.value o'.value
  tokens : List.Forall₂ SameUpToCase o.originalTokens o'.originalTokens

theorem forall₂_refl {α : Type} {R : α → α → Prop} (h : ∀ a, R a a) : ∀ l : List α, List.Forall₂ R l l
  | [] => .nil
  | _ :: l => .cons (h _) (forall₂_refl h l)

theorem Opts.refl (hV : ∀ s, V s s) (F : Prop) (o : Opt) : Opts c V F o o :=
  ⟨rfl, (fun _ => .inl rfl), rfl, rfl, rfl, forall₂_refl hV _, forall₂_refl fold_refl _⟩

/-- What a style parser returns. -/
def Parsed2 (c : Cmdline) (V : Str → Str → Prop) (F : Prop) (r r' : List Opt × List Str) : Prop :=
  List.Forall₂ (Opts c V F) r.1 r'.1 ∧ List.Forall₂ (Tok c V) r.2 r'.2

def Good (c : Cmdline) (V : Str → Str → Prop) (p : StyleParser) : Prop :=
  ∀ args args', List.Forall₂ (Tok c V) args args' → Both (Parsed2 c V False) (p args) (p args')

theorem parseLong_rel {t t' : Str} {rest rest' : List Str} (hf : SameUpToCase t t')
    (ha : ∀ p, findChar t '=' = some p → V (t.drop (p + 1)) (t'.drop (p + 1))) (ht : Tok c V t t' ∨ (t.length ≥ 3 ∧ t[0]? = some '-' ∧ t[1]? = some '-'))
    (hr : List.Forall₂ (Tok c V) rest rest') : Both (Parsed2 c V False) (c.parseLong (t :: rest)) (c.parseLong (t' :: rest')) := by
  rw [Cmdline.parseLong, Cmdline.parseLong]
  have hcond : (t'.length ≥ 3 ∧ t'[0]? = some '-' ∧ t'[1]? = some '-') ↔ (t.length ≥ 3 ∧ t[0]? = some '-' ∧ t[1]? = some '-') := by
    rw [fold_length hf, fold_get hf (by decide), fold_get hf (by decide)]
  by_cases h : t.length ≥ 3 ∧ t[0]? = some '-' ∧ t[1]? = some '-'
  · rw [if_pos h, if_pos (hcond.2 h), ← fold_find hf]
    cases he : findChar t '=' with
    | none => exact ⟨.cons ⟨fold_drop hf 2, (fun h => h.elim), rfl, rfl, rfl, .nil, .cons hf .nil⟩ .nil, hr⟩
    | some p =>
      dsimp only
      by_cases hn : t.drop (p + 1) = []
      · rw [if_pos hn, if_pos ((fold_nil (fold_drop hf _)).1 hn)]
        rfl
      · rw [if_neg hn, if_neg fun h => hn ((fold_nil (fold_drop hf _)).2 h)]
        exact ⟨.cons ⟨fold_substr hf _ _, (fun h => h.elim), rfl, rfl, rfl, .cons (ha p he) .nil, .cons hf .nil⟩ .nil, hr⟩
  · rw [if_neg h, if_neg fun h' => h (hcond.1 h')]
    rcases ht with ht | ht
    · exact ⟨.nil, .cons ht hr⟩
    · exact absurd ht h

theorem parseLong_good : Good c V c.parseLong := by
  intro args args' h
  cases h with
  | nil => rfl
  | cons ht hr => exact parseLong_rel ht.fold ht.after (.inl ht) hr

theorem parseDos_good : Good c V parseDos := by
  intro args args' h
  cases h with
  | nil => rfl
  | @cons t t' rest rest' ht hr =>
    rw [parseDos, parseDos]
    have hcond : (t'.length ≥ 2 ∧ t'[0]? = some '/') ↔ (t.length ≥ 2 ∧ t[0]? = some '/') := by
      rw [fold_length ht.fold, fold_get ht.fold (by decide)]
    by_cases h : t.length ≥ 2 ∧ t[0]? = some '/'
    · rw [if_pos h, if_pos (hcond.2 h)]
      refine ⟨.cons ⟨?_, (fun h => h.elim), rfl, rfl, rfl, ?_, .cons ht.fold .nil⟩ .nil, hr⟩
      · have := fold_substr ht.fold 1 1
        unfold SameUpToCase at *
        simp only [List.map_cons, this]
      · dsimp only
        by_cases hn : t.drop 2 = []
        · rw [if_pos hn, if_pos ((fold_nil (fold_drop ht.fold _)).1 hn)]; exact .nil
        · rw [if_neg hn, if_neg fun h => hn ((fold_nil (fold_drop ht.fold _)).2 h)]
          exact .cons (ht.dos (by rw [List.head?_eq_getElem?]; exact h.2)) .nil
    · rw [if_neg h, if_neg fun h' => h (hcond.1 h')]
      exact ⟨.nil, .cons ht hr⟩

theorem parseTerminator_good : Good c V parseTerminator := by
  intro args args' h
  cases h with
  | nil => rfl
  | @cons t t' rest rest' ht hr =>
    rw [parseTerminator, parseTerminator]
    have hcond : t' = ['-', '-'] ↔ t = ['-', '-'] := by
      have hh : ∀ {a b : Str}, SameUpToCase a b → a = ['-', '-'] → b = ['-', '-'] := by
        intro a b hab ha
        have h0 := (fold_get hab (z := '-') (by decide) 0).1 (by rw [ha]; rfl)
        have h1 := (fold_get hab (z := '-') (by decide) 1).1 (by rw [ha]; rfl)
        have hl := fold_length hab
        rw [ha] at hl
        match b, hl, h0, h1 with
        | [x, y], _, h0, h1 => simp at h0 h1; rw [h0, h1]
      exact ⟨hh ht.fold.symm', hh ht.fold⟩
    by_cases h : t = ['-', '-']
    · rw [if_pos h, if_pos (hcond.2 h)]
      refine ⟨?_, .nil⟩
      clear ht h hcond
      induction hr with
      | nil => exact .nil
      | cons h _ ih => exact .cons ⟨rfl, (fun h => h.elim), rfl, rfl, rfl, .cons h.whole .nil, .cons h.fold .nil⟩ ih
    · rw [if_neg h, if_neg fun h' => h (hcond.1 h')]
      exact ⟨.nil, .cons ht hr⟩

theorem parseShort_good (hV : ∀ s, V s s) (hs : active c.style Style.shortCaseInsensitive = true)
    (h1 : active c.style Style.allowShort = true) (h2 : active c.style Style.allowDashForShort = true) : Good c V c.parseShort := by
  intro args args' h
  cases h with
  | nil => rfl
  | @cons t t' rest rest' ht hr =>
    rw [Cmdline.parseShort, Cmdline.parseShort]
    have hcond : (t'.length ≥ 2 ∧ t'[0]? = some '-' ∧ t'[1]? ≠ some '-') ↔ (t.length ≥ 2 ∧ t[0]? = some '-' ∧ t[1]? ≠ some '-') := by
      rw [fold_length ht.fold, fold_get ht.fold (by decide), Ne, Ne, fold_get ht.fold (by decide)]
    by_cases h : t.length ≥ 2 ∧ t[0]? = some '-' ∧ t[1]? ≠ some '-'
    · rw [if_pos h, if_pos (hcond.2 h)]
      have hd : Dashed t := by
        match t, h with
        | x :: y :: r, h =>
          simp at h
          exact ⟨y, r, by rw [h.1], h.2⟩
      rcases ht.short h1 h2 hd with he | ⟨hl, hc, hc'⟩
      · subst he
        cases c.shortLoop t (substr t 0 2) (t.drop 2) with
        | error f => rfl
        | ok os => exact ⟨forall₂_refl (Opts.refl hV _) os, hr⟩
      · have hl' : t'.length = 2 := by rw [← fold_length ht.fold]; exact hl
        have e : ∀ s : Str, s.length = 2 → substr s 0 2 = s ∧ s.drop 2 = [] := by
          intro s hs
          exact ⟨by simp [substr, ← hs], by simp [← hs]⟩
        have hf : ∀ s, Clear c s → ∃ d, c.findShort s = .ok d := by
          intro s hs'
          unfold Cmdline.findShort
          rw [hs]
          cases hq : findNothrow c.desc s false false true with
          | error f => exact absurd hq (hs' f)
          | ok d => exact ⟨d, rfl⟩
        rw [(e t hl).1, (e t hl).2, (e t' hl').1, (e t' hl').2, Cmdline.shortLoop, Cmdline.shortLoop]
        obtain ⟨d, hd⟩ := hf t hc
        obtain ⟨d', hd'⟩ := hf t' hc'
        rw [hd, hd']
        exact ⟨.cons ⟨ht.fold, (fun h => h.elim), rfl, rfl, rfl, .nil, .cons ht.fold .nil⟩ .nil, hr⟩
    · rw [if_neg h, if_neg fun h' => h (hcond.1 h')]
      exact ⟨.nil, .cons ht hr⟩

theorem undisguise_fold {t t' : Str} (h : SameUpToCase t t') : SameUpToCase (undisguise t) (undisguise t') := by
  match t, t', h with
  | [], [], _ => rfl
  | x :: a, y :: b, h =>
    obtain ⟨h1, h2⟩ := fold_cons h
    have hxy := char_same (z := '/') (by decide) h1
    by_cases hx : x = '/'
    · have hy := hxy.1 hx
      subst hx hy
      simpa [undisguise, SameUpToCase] using h2
    · have hy : y ≠ '/' := fun e => hx (hxy.2 e)
      have e1 : undisguise (x :: a) = '-' :: x :: a := by
        unfold undisguise; split
        · rename_i e; cases e; exact absurd rfl hx
        · rfl
      have e2 : undisguise (y :: b) = '-' :: y :: b := by
        unfold undisguise; split
        · rename_i e; cases e; exact absurd rfl hy
        · rfl
      rw [e1, e2]
      simp only [SameUpToCase, List.map_cons, h1]
      rw [show a.map Char.toLower = b.map Char.toLower from h2]

/-- What follows the equals sign. -/
theorem undisguise_after {t : Str} (hd : t.head? = some '-' ∨ t.head? = some '/') :
    findChar (undisguise t) '=' = (findChar t '=').map (· + 1) ∧ ∀ p, p ≠ 0 → (undisguise t).drop (p + 1) = t.drop p := by
  obtain ⟨x, r, rfl⟩ : ∃ x r, t = x :: r := by
    cases t with
    | nil => simp at hd
    | cons x r => exact ⟨x, r, rfl⟩
  simp only [List.head?_cons, Option.some.injEq] at hd
  rcases hd with rfl | rfl
  · refine ⟨rfl, fun p hp => ?_⟩
    show ('-' :: '-' :: r).drop (p + 1) = _
    rfl
  · refine ⟨?_, fun p hp => ?_⟩
    · show findChar ('-' :: '-' :: r) '=' = _
      simp [findChar]
    · show ('-' :: '-' :: r).drop (p + 1) = _
      cases p with
      | zero => exact absurd rfl hp
      | succ p => rfl

theorem findChar_pos {t : Str} (hd : t.head? = some '-' ∨ t.head? = some '/') {p : Nat} (h : findChar t '=' = some p) : p ≠ 0 := by
  rintro rfl
  cases t with
  | nil => simp at hd
  | cons x r =>
    simp only [List.head?_cons, Option.some.injEq] at hd
    rcases hd with rfl | rfl <;> simp [findChar] at h

theorem disguised_fold {t t' : Str} (h : SameUpToCase t t') : SameUpToCase (disguisedName t) (disguisedName t') := by
  unfold disguisedName
  rw [← fold_find h]
  cases findChar t '=' with
  | none => exact fold_drop h 1
  | some p => exact fold_substr h 1 _

theorem parseDisguised_good (hl : active c.style Style.longCaseInsensitive = true) (hs : active c.style Style.shortCaseInsensitive = true) :
    Good c V c.parseDisguised := by
  intro args args' h
  cases h with
  | nil => rfl
  | @cons t t' rest rest' ht hr =>
    rw [Cmdline.parseDisguised, Cmdline.parseDisguised]
    have hf := ht.fold
    have hcond : (t'.length ≥ 2 ∧ ((t'[0]? = some '-' ∧ t'[1]? ≠ some '-') ∨ (active c.style Style.allowSlashForShort = true ∧ t'[0]? = some '/'))) ↔
        (t.length ≥ 2 ∧ ((t[0]? = some '-' ∧ t[1]? ≠ some '-') ∨ (active c.style Style.allowSlashForShort = true ∧ t[0]? = some '/'))) := by
      rw [fold_length hf, fold_get hf (by decide), Ne, Ne, fold_get hf (by decide), fold_get hf (z := '/') (by decide)]
    by_cases h : t.length ≥ 2 ∧ ((t[0]? = some '-' ∧ t[1]? ≠ some '-') ∨ (active c.style Style.allowSlashForShort = true ∧ t[0]? = some '/'))
    · rw [if_pos h, if_pos (hcond.2 h)]
      have hd : t.head? = some '-' ∨ t.head? = some '/' := by
        rw [List.head?_eq_getElem?]
        rcases h.2 with h | h
        · exact .inl h.1
        · exact .inr h.2
      have hd' : t'.head? = some '-' ∨ t'.head? = some '/' := by
        rw [List.head?_eq_getElem?] at hd ⊢
        rwa [fold_get hf.symm' (by decide), fold_get hf.symm' (z := '/') (by decide)]
      rcases lookup_fold hl hs (disguised_fold hf) with ⟨r, e1, e2⟩ | ⟨x, y, e1, e2⟩
      · rw [e1, e2]
        cases r with
        | none => exact ⟨.nil, .cons ht hr⟩
        | some d =>
          dsimp only
          have hp := parseLong_rel (c := c) (V := V) (undisguise_fold hf) (by
            intro p hp
            rw [(undisguise_after hd).1] at hp
            cases hq : findChar t '=' with
            | none => rw [hq] at hp; cases hp
            | some q =>
              rw [hq] at hp
              cases hp
              have hq0 := findChar_pos hd hq
              rw [(undisguise_after hd).2 (q + 1) (by omega), (undisguise_after hd').2 (q + 1) (by omega)]
              exact ht.after q hq) (.inr (by
            match t, h.1, hd with
            | x :: y :: r, _, hd =>
              simp at hd
              rcases hd with rfl | rfl
              · exact ⟨by simp [undisguise], rfl, rfl⟩
              · exact ⟨by simp [undisguise], rfl, rfl⟩)) hr
          cases h1 : c.parseLong (undisguise t :: rest) with
          | error f =>
            cases h2 : c.parseLong (undisguise t' :: rest') with
            | error g =>
              rw [h1, h2] at hp
              show kind _ = kind _
              rw [kind_addContext, kind_addContext]
              exact hp
            | ok r => rw [h1, h2] at hp; exact hp.elim
          | ok r =>
            cases h2 : c.parseLong (undisguise t' :: rest') with
            | error g => rw [h1, h2] at hp; exact hp.elim
            | ok r' => rw [h1, h2] at hp; exact hp
      · rw [e1, e2]
        show kind _ = kind _
        rw [kind_addContext, kind_addContext]
        exact kind_ambiguous x y
    · rw [if_neg h, if_neg fun h' => h (hcond.1 h')]
      exact ⟨.nil, .cons ht hr⟩

theorem parsers_good (hc : Insensitive c) (hV : ∀ s, V s s) : ∀ p ∈ c.parsers, Good c V p := by
  unfold Cmdline.parsers
  rw [hc.style, hc.extra]
  intro p hp
  simp only [List.nil_append, List.mem_append, List.mem_singleton] at hp
  rcases hp with (((hp | hp) | hp) | hp) | rfl
  · split at hp
    · rw [List.mem_singleton.1 hp]; exact parseLong_good
    · cases hp
  · split at hp
    · rw [List.mem_singleton.1 hp]; exact parseDisguised_good hc.long hc.short
    · cases hp
  · split at hp
    · rename_i hb
      rw [Bool.and_eq_true] at hb
      rw [List.mem_singleton.1 hp]; exact parseShort_good hV hc.short hb.1 hb.2
    · cases hp
  · split at hp
    · rw [List.mem_singleton.1 hp]; exact parseDos_good
    · cases hp
  · exact parseTerminator_good

theorem forall₂_nil {α : Type} {R : α → α → Prop} {a b : List α} (h : List.Forall₂ R a b) : a = [] ↔ b = [] := by
  cases h <;> simp

theorem lookahead_rel (ps : List StyleParser) (hp : ∀ p ∈ ps, Good c V p) {args args' : List Str} (h : List.Forall₂ (Tok c V) args args') :
    Both (List.Forall₂ (Opts c V False)) (lookahead ps args) (lookahead ps args') := by
  induction ps generalizing args args' with
  | nil => exact .nil
  | cons p ps ih =>
    have := hp p (by simp) args args' h
    rw [lookahead, lookahead]
    cases h1 : p args with
    | error f =>
      cases h2 : p args' with
      | error g => rw [h1, h2] at this; exact this
      | ok r => rw [h1, h2] at this; exact this.elim
    | ok r =>
      cases h2 : p args' with
      | error g => rw [h1, h2] at this; exact this.elim
      | ok r' =>
        rw [h1, h2] at this
        obtain ⟨os, rest⟩ := r
        obtain ⟨os', rest'⟩ := r'
        obtain ⟨g1, g2⟩ := this
        dsimp only at g1 g2 ⊢
        by_cases hn : os = []
        · rw [if_pos hn, if_pos ((forall₂_nil g1).1 hn)]
          exact ih (fun q hq => hp q (by simp [hq])) g2
        · rw [if_neg hn, if_neg fun h => hn ((forall₂_nil g1).2 h)]
          exact g1

def Finished (c : Cmdline) (V : Str → Str → Prop) (r r' : Opt × List Str) : Prop := Opts c V True r.1 r'.1 ∧ List.Forall₂ (Tok c V) r.2 r'.2

theorem Opts.push {o o' : Opt} {F : Prop} (h : Opts c V F o o') {t t' : Str} (hv : V t t') (hf : SameUpToCase t t') :
    Opts c V F { o with value := o.value ++ [t], originalTokens := o.originalTokens ++ [t] }
      { o' with value := o'.value ++ [t'], originalTokens := o'.originalTokens ++ [t'] } :=
  ⟨h.key, h.own, h.position, h.unregistered, h.caseFlag, List.rel_append h.value (.cons hv .nil), List.rel_append h.tokens (.cons hf .nil)⟩

theorem grab_rel (hc : Insensitive c) (ps : List StyleParser) (hp : ∀ p ∈ ps, Good c V p) (n : Nat) {other other' : List Str}
    (h : List.Forall₂ (Tok c V) other other') {o o' : Opt} (ho : Opts c V True o o') (orig orig' : Str) :
    Both (Finished c V) (c.grab ps n other o orig) (c.grab ps n other' o' orig') := by
  induction n generalizing other other' o o' orig orig' with
  | zero => rw [Cmdline.grab, Cmdline.grab]; exact ⟨ho, h⟩
  | succ n ih =>
    cases h with
    | nil => rw [Cmdline.grab, Cmdline.grab]; exact ⟨ho, .nil⟩
    | @cons t t' ts ts' ht hts =>
      rw [Cmdline.grab, Cmdline.grab]
      have hl := lookahead_rel ps hp (args := [t]) (args' := [t']) (.cons ht .nil)
      cases h1 : lookahead ps [t] with
      | error f =>
        cases h2 : lookahead ps [t'] with
        | error g =>
          rw [h1, h2] at hl
          show kind _ = kind _
          rw [kind_addContext, kind_addContext]
          exact hl
        | ok r => rw [h1, h2] at hl; exact hl.elim
      | ok os =>
        cases h2 : lookahead ps [t'] with
        | error g => rw [h1, h2] at hl; exact hl.elim
        | ok os' =>
          rw [h1, h2] at hl
          have hl : List.Forall₂ (Opts c V False) os os' := hl
          cases hl with
          | nil => exact ih hts (ho.push ht.whole ht.fold) _ _
          | cons _ _ =>
            dsimp only
            rcases lookup_fold hc.long hc.short ht.fold with ⟨r, e1, e2⟩ | ⟨x, y, e1, e2⟩
            · rw [e1, e2]
              cases r with
              | none => exact ih hts (ho.push ht.whole ht.fold) _ _
              | some d =>
                show kind _ = kind _
                rw [kind_addContext, kind_addContext]
            · rw [e1, e2]
              show kind _ = kind _
              rw [kind_addContext, kind_addContext]
              exact kind_ambiguous x y

theorem key_rel {d : OptionDesc} (hd : d ∈ c.desc) {a b : Str} (h : SameUpToCase a b) :
    SameUpToCase (d.key a) (d.key b) ∧ (d.key a = d.key b ∨ Wild c) := by
  unfold OptionDesc.key
  cases hn : d.longNames with
  | nil => exact ⟨rfl, .inl rfl⟩
  | cons n ns =>
    dsimp only
    split
    · rename_i hs
      refine ⟨h, .inr ⟨d, hd, n, by rw [hn]; simp, ?_⟩⟩
      exact findChar_isSome.1 hs
    · exact ⟨rfl, .inl rfl⟩

theorem finishOption_rel (hc : Insensitive c) (ps : List StyleParser) (hp : ∀ p ∈ ps, Good c V p) {other other' : List Str}
    (h : List.Forall₂ (Tok c V) other other') {o o' : Opt} (ho : Opts c V False o o') :
    Both (Finished c V) (c.finishOption ps o other) (c.finishOption ps o' other') := by
  unfold Cmdline.finishOption
  by_cases hk : o.stringKey = []
  · have hk' := (fold_nil ho.key).1 hk
    rw [if_pos hk, if_pos hk']
    exact ⟨⟨ho.key, (fun _ => .inl (by rw [hk, hk'])), ho.position, ho.unregistered, ho.caseFlag, ho.value, ho.tokens⟩, h⟩
  · rw [if_neg hk, if_neg fun e => hk ((fold_nil ho.key).2 e)]
    dsimp only
    rcases lookup_fold hc.long hc.short ho.key with ⟨r, e1, e2⟩ | ⟨x, y, e1, e2⟩
    · rw [e1, e2]
      cases r with
      | none =>
        dsimp only
        split
        · exact ⟨⟨ho.key, (fun _ => .inr (.inl rfl)), ho.position, rfl, ho.caseFlag, ho.value, ho.tokens⟩, h⟩
        · show kind _ = kind _
          rw [kind_addContext, kind_addContext]
      | some d =>
        dsimp only
        obtain ⟨k1, k2⟩ := key_rel (Raw.lookup_mem e1) ho.key
        rw [ho.value.length_eq, h.length_eq]
        by_cases h1 : o'.value.length + other'.length ≥ d.semantic.minTokens
        · rw [if_pos h1, if_pos h1]
          by_cases h2 : o.value ≠ [] ∧ d.semantic.maxTokens = 0
          · rw [if_pos h2, if_pos ⟨fun e => h2.1 ((forall₂_nil ho.value).2 e), h2.2⟩]
            show kind _ = kind _
            rw [kind_addContext, kind_addContext]
          · rw [if_neg h2, if_neg fun e => h2 ⟨fun e' => e.1 ((forall₂_nil ho.value).1 e'), e.2⟩]
            have k3 : d.key o.stringKey = d.key o'.stringKey ∨ o.unregistered = true ∨ Wild c := k2.elim .inl fun w => .inr (.inr w)
            exact grab_rel hc ps hp _ h (o := { o with stringKey := d.key o.stringKey }) (o' := { o' with stringKey := d.key o'.stringKey })
              ⟨k1, (fun _ => k3), ho.position, ho.unregistered, ho.caseFlag, ho.value, ho.tokens⟩ _ _
        · rw [if_neg h1, if_neg h1]
          show kind _ = kind _
          rw [kind_addContext, kind_addContext]
    · rw [e1, e2]
      show kind _ = kind _
      rw [kind_addContext, kind_addContext]
      exact kind_ambiguous x y

theorem finishAll_rel (hc : Insensitive c) (ps : List StyleParser) (hp : ∀ p ∈ ps, Good c V p) {os os' : List Opt}
    (ho : List.Forall₂ (Opts c V False) os os') {args args' : List Str} (h : List.Forall₂ (Tok c V) args args') :
    Both (Parsed2 c V True) (c.finishAll ps os args) (c.finishAll ps os' args') := by
  induction ho with
  | nil => rw [Cmdline.finishAll, Cmdline.finishAll]; exact ⟨.nil, h⟩
  | @cons o o' os os' h1 hs ih =>
    cases hs with
    | nil =>
      rw [Cmdline.finishAll, Cmdline.finishAll]
      have := finishOption_rel hc ps hp h h1
      cases e1 : c.finishOption ps o args with
      | error f =>
        cases e2 : c.finishOption ps o' args' with
        | error g => rw [e1, e2] at this; exact this
        | ok r => rw [e1, e2] at this; exact this.elim
      | ok r =>
        cases e2 : c.finishOption ps o' args' with
        | error g => rw [e1, e2] at this; exact this.elim
        | ok r' => rw [e1, e2] at this; exact ⟨.cons this.1 .nil, this.2⟩
    | @cons p p' os2 os2' g gs =>
      rw [finishAll.eq_3 c _ args o (p :: os2) (by simp), finishAll.eq_3 c _ args' o' (p' :: os2') (by simp)]
      have := finishOption_rel hc ps hp (other := []) (other' := []) .nil h1
      cases e1 : c.finishOption ps o [] with
      | error f =>
        cases e2 : c.finishOption ps o' [] with
        | error g => rw [e1, e2] at this; exact this
        | ok r => rw [e1, e2] at this; exact this.elim
      | ok r =>
        cases e2 : c.finishOption ps o' [] with
        | error g => rw [e1, e2] at this; exact this.elim
        | ok r' =>
          rw [e1, e2] at this
          dsimp only
          cases e3 : c.finishAll ps (p :: os2) args with
          | error f =>
            cases e4 : c.finishAll ps (p' :: os2') args' with
            | error g => rw [e3, e4] at ih; exact ih
            | ok r => rw [e3, e4] at ih; exact ih.elim
          | ok r2 =>
            cases e4 : c.finishAll ps (p' :: os2') args' with
            | error g => rw [e3, e4] at ih; exact ih.elim
            | ok r2' => rw [e3, e4] at ih; exact ⟨.cons this.1 ih.1, ih.2⟩

theorem tryParsers_rel (hc : Insensitive c) (all ps : List StyleParser) (ha : ∀ p ∈ all, Good c V p) (hp : ∀ p ∈ ps, Good c V p)
    {args args' : List Str} (h : List.Forall₂ (Tok c V) args args') :
    Both (Parsed2 c V True) (c.tryParsers all ps args) (c.tryParsers all ps args') := by
  induction ps generalizing args args' with
  | nil =>
    cases h with
    | nil => rw [Cmdline.tryParsers]; rfl
    | cons ht hr =>
      rw [Cmdline.tryParsers, Cmdline.tryParsers]
      exact ⟨.cons ⟨rfl, (fun _ => .inl rfl), rfl, rfl, rfl, .cons ht.whole .nil, .cons ht.fold .nil⟩ .nil, hr⟩
  | cons p ps ih =>
    rw [Cmdline.tryParsers, Cmdline.tryParsers]
    have h1 := hp p (by simp) args args' h
    cases e1 : p args with
    | error f =>
      cases e2 : p args' with
      | error g => rw [e1, e2] at h1; exact h1
      | ok r => rw [e1, e2] at h1; exact h1.elim
    | ok r =>
      cases e2 : p args' with
      | error g => rw [e1, e2] at h1; exact h1.elim
      | ok r' =>
        rw [e1, e2] at h1
        dsimp only
        have h2 := finishAll_rel hc all ha h1.1 h1.2
        cases e3 : c.finishAll all r.1 r.2 with
        | error f =>
          cases e4 : c.finishAll all r'.1 r'.2 with
          | error g => rw [e3, e4] at h2; exact h2
          | ok r => rw [e3, e4] at h2; exact h2.elim
        | ok q =>
          cases e4 : c.finishAll all r'.1 r'.2 with
          | error g => rw [e3, e4] at h2; exact h2.elim
          | ok q' =>
            rw [e3, e4] at h2
            dsimp only
            rw [h2.2.length_eq, h.length_eq]
            by_cases hl : q'.2.length ≠ args'.length
            · rw [if_pos hl, if_pos hl]; exact h2
            · rw [if_neg hl, if_neg hl]
              have h3 := ih (fun x hx => hp x (by simp [hx])) h2.2
              cases e5 : c.tryParsers all ps q.2 with
              | error f =>
                cases e6 : c.tryParsers all ps q'.2 with
                | error g => rw [e5, e6] at h3; exact h3
                | ok r => rw [e5, e6] at h3; exact h3.elim
              | ok w =>
                cases e6 : c.tryParsers all ps q'.2 with
                | error g => rw [e5, e6] at h3; exact h3.elim
                | ok w' => rw [e5, e6] at h3; exact ⟨List.rel_append h2.1 h3.1, h3.2⟩

theorem loop_rel (hc : Insensitive c) (hV : ∀ s, V s s) (fuel : Nat) {args args' : List Str} (h : List.Forall₂ (Tok c V) args args') :
    Both (List.Forall₂ (Opts c V True)) (c.loop fuel args) (c.loop fuel args') := by
  induction fuel generalizing args args' with
  | zero =>
    cases h with
    | nil => rw [Cmdline.loop]; exact .nil
    | cons _ _ => rw [Cmdline.loop, Cmdline.loop]; rfl
  | succ n ih =>
    cases h with
    | nil => rw [Cmdline.loop]; exact .nil
    | @cons t t' ts ts' ht hr =>
      rw [Cmdline.loop, Cmdline.loop]
      have h1 := tryParsers_rel hc c.parsers c.parsers (parsers_good hc hV) (parsers_good hc hV) (.cons ht hr)
      unfold Cmdline.step
      cases e1 : c.tryParsers c.parsers c.parsers (t :: ts) with
      | error f =>
        cases e2 : c.tryParsers c.parsers c.parsers (t' :: ts') with
        | error g => rw [e1, e2] at h1; exact h1
        | ok r => rw [e1, e2] at h1; exact h1.elim
      | ok r =>
        cases e2 : c.tryParsers c.parsers c.parsers (t' :: ts') with
        | error g => rw [e1, e2] at h1; exact h1.elim
        | ok r' =>
          rw [e1, e2] at h1
          dsimp only
          have h2 := ih h1.2
          cases e3 : c.loop n r.2 with
          | error f =>
            cases e4 : c.loop n r'.2 with
            | error g => rw [e3, e4] at h2; exact h2
            | ok q => rw [e3, e4] at h2; exact h2.elim
          | ok q =>
            cases e4 : c.loop n r'.2 with
            | error g => rw [e3, e4] at h2; exact h2.elim
            | ok q' => rw [e3, e4] at h2; exact List.rel_append h1.1 h2

theorem absorb_rel (lim : Option Nat) {o o' : Opt} (ho : Opts c V True o o') {ps ps' : List Opt} (h : List.Forall₂ (Opts c V True) ps ps') :
    Both (fun r r' => Opts c V True r.1 r'.1 ∧ r.2 = r'.2) (absorb lim o ps) (absorb lim o' ps') := by
  induction h generalizing lim o o' with
  | nil => rw [absorb, absorb]; exact ⟨ho, rfl⟩
  | @cons p p' ps ps' hp hs ih =>
    rw [absorb, absorb]
    by_cases h1 : lim = some 0
    · rw [if_pos h1, if_pos h1]; exact ⟨ho, rfl⟩
    rw [if_neg h1, if_neg h1]
    by_cases h2 : p.stringKey ≠ []
    · rw [if_pos h2, if_pos fun e => h2 ((fold_nil hp.key).2 e)]; exact ⟨ho, rfl⟩
    have h2' : ¬ p'.stringKey ≠ [] := fun e => h2 fun e' => e ((fold_nil hp.key).1 e')
    rw [if_neg h2, if_neg h2', ← hp.position]
    by_cases h3 : p.positionKey = intMax
    · rw [if_pos h3, if_pos h3]; exact ⟨ho, rfl⟩
    rw [if_neg h3, if_neg h3]
    have hv := hp.value
    have ht := hp.tokens
    generalize p.value = v at hv
    generalize p'.value = v' at hv
    generalize p.originalTokens = t at ht
    generalize p'.originalTokens = t' at ht
    cases hv with
    | nil => rfl
    | cons hv1 hvs =>
      cases hvs with
      | cons _ _ => rfl
      | nil =>
        dsimp only
        cases ht with
        | nil => rfl
        | cons ht1 hts =>
          cases hts with
          | cons _ _ => rfl
          | nil =>
            dsimp only
            rename_i v0 v0' t0 t0'
            have := ih (lim.map (· - 1)) (o := { o with value := o.value ++ [v0], originalTokens := o.originalTokens ++ [t0] })
              (o' := { o' with value := o'.value ++ [v0'], originalTokens := o'.originalTokens ++ [t0'] })
              ⟨ho.key, ho.own, ho.position, ho.unregistered, ho.caseFlag, List.rel_append ho.value (.cons hv1 .nil),
                List.rel_append ho.tokens (.cons ht1 .nil)⟩
            generalize absorb (lim.map (· - 1)) { o with value := o.value ++ [v0], originalTokens := o.originalTokens ++ [t0] } ps = r at this ⊢
            generalize absorb (lim.map (· - 1)) { o' with value := o'.value ++ [v0'], originalTokens := o'.originalTokens ++ [t0'] } ps' = r' at this ⊢
            cases r with
            | error f =>
              cases r' with
              | error g => exact this
              | ok r => exact this.elim
            | ok r =>
              cases r' with
              | error g => exact this.elim
              | ok r' => exact ⟨this.1, by dsimp only; rw [this.2]⟩

theorem regroup_rel (hc : Insensitive c) (k : Nat) {os os' : List Opt} (h : List.Forall₂ (Opts c V True) os os') :
    Both (List.Forall₂ (Opts c V True)) (c.regroup k os) (c.regroup k os') := by
  induction h generalizing k with
  | nil => rw [Cmdline.regroup]; exact .nil
  | @cons o o' os os' ho hs ih =>
    cases k with
    | succ k => rw [Cmdline.regroup, Cmdline.regroup]; exact ih k
    | zero =>
      rw [Cmdline.regroup, Cmdline.regroup]
      dsimp only
      have cont : ∀ (x x' : Opt) (k : Nat), Opts c V True x x' →
          Both (List.Forall₂ (Opts c V True))
            (match c.regroup k os with
              | .error f => .error f
              | .ok os => .ok (x :: os))
            (match c.regroup k os' with
              | .error f => .error f
              | .ok os => .ok (x' :: os)) := by
        intro x x' k hx
        have := ih k
        cases e1 : c.regroup k os with
        | error f =>
          cases e2 : c.regroup k os' with
          | error g => rw [e1, e2] at this; exact this
          | ok r => rw [e1, e2] at this; exact this.elim
        | ok r =>
          cases e2 : c.regroup k os' with
          | error g => rw [e1, e2] at this; exact this.elim
          | ok r' => rw [e1, e2] at this; exact .cons hx this
      by_cases hk : o.stringKey = []
      · rw [if_pos hk, if_pos ((fold_nil ho.key).1 hk)]
        exact cont _ _ _ ho
      · rw [if_neg hk, if_neg fun e => hk ((fold_nil ho.key).2 e)]
        rcases lookup_fold hc.long hc.short ho.key with ⟨r, e1, e2⟩ | ⟨x, y, e1, e2⟩
        · rw [e1, e2]
          cases r with
          | none => exact cont _ _ _ ho
          | some d =>
            dsimp only
            rw [ho.value.length_eq]
            split
            · have ha := absorb_rel (takeLimit d.semantic.maxTokens o'.value.length) ho hs
              cases e3 : absorb (takeLimit d.semantic.maxTokens o'.value.length) o os with
              | error f =>
                cases e4 : absorb (takeLimit d.semantic.maxTokens o'.value.length) o' os' with
                | error g => rw [e3, e4] at ha; exact ha
                | ok r => rw [e3, e4] at ha; exact ha.elim
              | ok r =>
                cases e4 : absorb (takeLimit d.semantic.maxTokens o'.value.length) o' os' with
                | error g => rw [e3, e4] at ha; exact ha.elim
                | ok r' =>
                  rw [e3, e4] at ha
                  dsimp only
                  rw [← ha.2]
                  exact cont _ _ _ ha.1
            · exact cont _ _ _ ho
        · rw [e1, e2]
          unfold errAmbiguous
          dsimp only
          have ht := ho.tokens
          generalize o.originalTokens = t at ht
          generalize o'.originalTokens = t' at ht
          cases ht with
          | nil => rfl
          | cons _ _ =>
            show kind (Fail.addContext (.opt _) _ _ _) = kind (Fail.addContext (.opt _) _ _ _)
            rw [kind_addContext, kind_addContext]
            rfl

theorem assignPositions_rel (n : Int) {os os' : List Opt} (h : List.Forall₂ (Opts c V True) os os') :
    List.Forall₂ (Opts c V True) (assignPositions n os) (assignPositions n os') := by
  induction h generalizing n with
  | nil => exact .nil
  | @cons o o' os os' ho hs ih =>
    rw [assignPositions, assignPositions]
    by_cases hk : o.stringKey = []
    · rw [if_pos hk, if_pos ((fold_nil ho.key).1 hk)]
      exact .cons ⟨ho.key, ho.own, rfl, ho.unregistered, ho.caseFlag, ho.value, ho.tokens⟩ (ih _)
    · rw [if_neg hk, if_neg fun e => hk ((fold_nil ho.key).2 e)]
      exact .cons ho (ih _)

theorem namePositional_rel (p : Positional) (n : Nat) {os os' : List Opt} (h : List.Forall₂ (Opts c V True) os os') :
    Both (List.Forall₂ (Opts c V True)) (namePositional p n os) (namePositional p n os') := by
  induction h generalizing n with
  | nil => exact .nil
  | @cons o o' os os' ho hs ih =>
    rw [namePositional, namePositional, ← ho.position]
    by_cases hk : o.positionKey ≠ -1
    · rw [if_pos hk, if_pos hk]
      by_cases hf : p.full n = true
      · rw [if_pos hf, if_pos hf]; rfl
      · rw [if_neg hf, if_neg hf]
        cases p.nameForPosition n with
        | error f => rfl
        | ok name =>
          dsimp only
          have := ih (n + 1)
          cases e1 : namePositional p (n + 1) os with
          | error f =>
            cases e2 : namePositional p (n + 1) os' with
            | error g => rw [e1, e2] at this; exact this
            | ok r => rw [e1, e2] at this; exact this.elim
          | ok r =>
            cases e2 : namePositional p (n + 1) os' with
            | error g => rw [e1, e2] at this; exact this.elim
            | ok r' =>
              rw [e1, e2] at this
              exact .cons ⟨rfl, (fun _ => .inl rfl), rfl, ho.unregistered, ho.caseFlag, ho.value, ho.tokens⟩ this
    · rw [if_neg hk, if_neg hk]
      have := ih n
      cases e1 : namePositional p n os with
      | error f =>
        cases e2 : namePositional p n os' with
        | error g => rw [e1, e2] at this; exact this
        | ok r => rw [e1, e2] at this; exact this.elim
      | ok r =>
        cases e2 : namePositional p n os' with
        | error g => rw [e1, e2] at this; exact this.elim
        | ok r' => rw [e1, e2] at this; exact .cons ho this

theorem setCase_rel {o o' : Opt} (h : Opts c V True o o') : SameOption c V (c.setCase o) (c.setCase o') := by
  unfold Cmdline.setCase
  have hcond : (o'.stringKey.length > 2 ∨ (o'.stringKey.length > 1 ∧ o'.stringKey[0]? ≠ some '-')) ↔
      (o.stringKey.length > 2 ∨ (o.stringKey.length > 1 ∧ o.stringKey[0]? ≠ some '-')) := by
    rw [fold_length h.key, Ne, Ne, fold_get h.key (by decide)]
  by_cases hk : o.stringKey.length > 2 ∨ (o.stringKey.length > 1 ∧ o.stringKey[0]? ≠ some '-')
  · rw [if_pos hk, if_pos (hcond.2 hk)]
    exact ⟨h.key, h.own trivial, h.position, h.unregistered, rfl, h.value, h.tokens⟩
  · rw [if_neg hk, if_neg fun e => hk (hcond.1 e)]
    exact ⟨h.key, h.own trivial, h.position, h.unregistered, rfl, h.value, h.tokens⟩

theorem run_rel (hc : Insensitive c) (hV : ∀ s, V s s) {args args' : List Str} (h : List.Forall₂ (Tok c V) args args') :
    Both (List.Forall₂ (SameOption c V)) (c.run args) (c.run args') := by
  unfold Cmdline.run Cmdline.runFuel
  rw [h.length_eq]
  have h1 := loop_rel hc hV (args'.length + 1) h
  cases e1 : c.loop (args'.length + 1) args with
  | error f =>
    cases e2 : c.loop (args'.length + 1) args' with
    | error g => rw [e1, e2] at h1; exact h1
    | ok r => rw [e1, e2] at h1; exact h1.elim
  | ok r =>
    cases e2 : c.loop (args'.length + 1) args' with
    | error g => rw [e1, e2] at h1; exact h1.elim
    | ok r' =>
      rw [e1, e2] at h1
      unfold Cmdline.finalize
      dsimp only
      have h2 := regroup_rel hc 0 h1
      cases e3 : c.regroup 0 r with
      | error f =>
        cases e4 : c.regroup 0 r' with
        | error g => rw [e3, e4] at h2; exact h2
        | ok r => rw [e3, e4] at h2; exact h2.elim
      | ok q =>
        cases e4 : c.regroup 0 r' with
        | error g => rw [e3, e4] at h2; exact h2.elim
        | ok q' =>
          rw [e3, e4] at h2
          dsimp only
          have h3 := assignPositions_rel 0 h2
          have last : ∀ {l l' : List Opt}, List.Forall₂ (Opts c V True) l l' → List.Forall₂ (SameOption c V) (l.map c.setCase) (l'.map c.setCase) := by
            intro l l' hl
            induction hl with
            | nil => exact .nil
            | cons h _ ih => exact .cons (setCase_rel h) ih
          unfold applyPositional
          cases c.positional with
          | none => exact last h3
          | some p =>
            dsimp only
            have h4 := namePositional_rel p 0 h3
            cases e5 : namePositional p 0 (assignPositions 0 q) with
            | error f =>
              cases e6 : namePositional p 0 (assignPositions 0 q') with
              | error g => rw [e5, e6] at h4; exact h4
              | ok r => rw [e5, e6] at h4; exact h4.elim
            | ok w =>
              cases e6 : namePositional p 0 (assignPositions 0 q') with
              | error g => rw [e5, e6] at h4; exact h4.elim
              | ok w' => rw [e5, e6] at h4; exact last h4

end CaseLines
open CaseLines

/-- **C149.** If letter case is disregarded, command lines that differ in letter case only are both accepted, with results that differ in letter case
only, or both refused, with the same kind of exception. -/
def C149_claim : Prop := ∀ (c : Cmdline), Insensitive c → ∀ args args', List.Forall₂ SameUpToCase args args' →
  Both (List.Forall₂ (SameOption c SameUpToCase)) (c.run args) (c.run args')

/-- Two switches and a parser of the default style that disregards letter case. -/
def CaseLines_demo : Cmdline :=
  { style := Style.defaultStyle ||| Style.caseInsensitive
    desc := [Test.od "all,a" Test.unt, Test.od "brief,b" Test.unt, Test.od "output,o" (Test.sem Test.vstr)] }

theorem CaseLines_demo_insensitive : Insensitive CaseLines_demo := ⟨by decide, by decide, rfl, rfl⟩

/-- **C149 is false in the code:** `-ab` is accepted and `-AB` is not, since `parse_short_option` looks up `-A` as it is (src/cmdline.cpp:571), and
then takes `B` for a value. -/
theorem C149_negation : ¬ C149_claim := by
  intro h
  have := h CaseLines_demo CaseLines_demo_insensitive [Test.L "-ab"] [Test.L "-AB"] (.cons (by unfold SameUpToCase; decide) .nil)
  have h1 : ∃ r, CaseLines_demo.run [Test.L "-ab"] = .ok r := ⟨_, rfl⟩
  have h2 : ∃ f, CaseLines_demo.run [Test.L "-AB"] = .error f := ⟨_, rfl⟩
  obtain ⟨r, h1⟩ := h1
  obtain ⟨f, h2⟩ := h2
  rw [h1, h2] at this
  exact this

/-- **C149, part that holds:** tokens with one dash differ in letter case only if they have two characters and are not ambiguous. Missing: groups of
short options, and short options with their value in the token; there the code does not do what is claimed. -/
theorem C149_case_partial (c : Cmdline) (hc : Insensitive c) (args args' : List Str) (h : List.Forall₂ (Token c) args args') :
    Both (List.Forall₂ (SameOption c SameUpToCase)) (c.run args) (c.run args') := by
  apply run_rel hc fold_refl
  exact h.imp fun t t' ht => ⟨ht, ht.fold, (fun p _ => fold_drop ht.fold _), (fun _ => fold_drop ht.fold _)⟩

/-- If only the names of options differ in letter case, the values are the same, unless a token that looks like an option is taken for a value. -/
theorem C149_names_partial (c : Cmdline) (hc : Insensitive c) (args args' : List Str) (h : List.Forall₂ (Token c) args args')
    (hn : List.Forall₂ NameOnly args args') : Both (List.Forall₂ (SameOption c SameValue)) (c.run args) (c.run args') := by
  apply run_rel hc fun s => .inl rfl
  induction h with
  | nil => exact .nil
  | @cons t t' ts ts' ht hs ih =>
    cases hn with
    | cons hn hns =>
      refine .cons ⟨ht, ?_, ?_, ?_⟩ (ih hns)
      · rcases hn with rfl | hn
        · exact .inl rfl
        · exact .inr ⟨hn.1, ht.fold⟩
      · intro p hp
        rcases hn with rfl | hn
        · exact .inl rfl
        · exact .inl (hn.2.1 p hp)
      · intro hd
        rcases hn with rfl | hn
        · exact .inl rfl
        · exact .inl (hn.2.2 hd)

/-- All of it, if short options are not written with a dash: with the slash, or long names only, also behind one dash. -/
theorem C149_without_dashes (c : Cmdline) (hc : Insensitive c)
    (hd : active c.style Style.allowShort = false ∨ active c.style Style.allowDashForShort = false) (args args' : List Str)
    (h : List.Forall₂ SameUpToCase args args') : Both (List.Forall₂ (SameOption c SameUpToCase)) (c.run args) (c.run args') := by
  apply C149_case_partial c hc
  refine h.imp fun t t' ht => ⟨ht, fun h1 h2 => ?_⟩
  rcases hd with hd | hd
  · rw [hd] at h1; cases h1
  · rw [hd] at h2; cases h2

namespace CaseLines
open Test

def upper : List Str := [L "--OUT=File.txt", L "-A", L "Rest", L "--BRIEF"]
def lower : List Str := [L "--out=File.txt", L "-a", L "Rest", L "--brief"]

theorem demo_tokens : List.Forall₂ (Token CaseLines_demo) upper lower ∧ List.Forall₂ NameOnly upper lower := by
  refine ⟨.cons ⟨by unfold SameUpToCase; decide, ?_⟩ (.cons ⟨by unfold SameUpToCase; decide, ?_⟩ (.cons ⟨rfl, ?_⟩
    (.cons ⟨by unfold SameUpToCase; decide, ?_⟩ .nil))), ?_⟩
  · rintro - - ⟨x, r, e, hx⟩
    injection e with _ e; injection e with e _
    exact absurd e.symm hx
  · intro _ _ _
    exact .inr ⟨rfl, (fun f e => nomatch e), (fun f e => nomatch e)⟩
  · intro _ _ _; exact .inl rfl
  · rintro - - ⟨x, r, e, hx⟩
    injection e with _ e; injection e with e _
    exact absurd e.symm hx
  · refine .cons (.inr ⟨.inl rfl, ?_, by decide⟩) (.cons (.inr ⟨.inl rfl, ?_, by decide⟩) (.cons (.inl rfl) (.cons (.inr ⟨.inl rfl, ?_, by decide⟩) .nil)))
    · intro p hp
      rw [show findChar (L "--OUT=File.txt") '=' = some 5 by decide] at hp
      cases hp
      decide
    · intro p hp
      rw [show findChar (L "-A") '=' = none by decide] at hp
      cases hp
    · intro p hp
      rw [show findChar (L "--BRIEF") '=' = none by decide] at hp
      cases hp

/-- Abbreviated and in capitals: the options are the same, and the value keeps its letters. -/
example : Both (List.Forall₂ (SameOption CaseLines_demo SameValue)) (CaseLines_demo.run upper) (CaseLines_demo.run lower) ∧
    (CaseLines_demo.run upper).toOption.map (·.map fun o => (o.stringKey, o.value)) =
      some [(L "output", [L "File.txt"]), (L "all", []), ([], [L "Rest"]), (L "brief", [])] :=
  ⟨C149_names_partial _ CaseLines_demo_insensitive _ _ demo_tokens.1 demo_tokens.2, by decide⟩

/-- A Windows style: groups of letters are no matter there. -/
example : Both (List.Forall₂ (SameOption { CaseLines_demo with style := 7931 } SameUpToCase))
    (({ CaseLines_demo with style := 7931 } : Cmdline).run [L "/OOut.txt", L "/Output=Out.txt"])
    (({ CaseLines_demo with style := 7931 } : Cmdline).run [L "/oout.TXT", L "/OUTPUT=Out.txt"]) :=
  C149_without_dashes _ ⟨by decide, by decide, rfl, rfl⟩ (.inr (by decide)) _ _
    (.cons (by unfold SameUpToCase; decide) (.cons (by unfold SameUpToCase; decide) .nil))

end CaseLines

end PO
