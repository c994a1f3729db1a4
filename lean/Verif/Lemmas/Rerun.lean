import Verif.Lemmas.CmdlineState
import Verif.Lemmas.CmdlineFail
import Verif.Spec.Rerun
/-
What is left in the parser.
-/
namespace PO
namespace Cmdline
open Spec

theorem grabSt_suffix (c : Cmdline) (ps : List StParser) (n : Nat) (other : List Str) (o : Opt) (orig : Str) : (c.grabSt ps n other o orig).2 <:+ other := by
  induction n generalizing other o orig with
  | zero => rw [grabSt]; exact List.suffix_refl _
  | succ n ih =>
    cases other with
    | nil => rw [grabSt]; exact List.suffix_refl _
    | cons t ts =>
      rw [grabSt]
      cases lookaheadSt ps [t] with
      | error f => exact List.suffix_refl _
      | ok l =>
        cases l with
        | nil => exact (ih _ _ _).trans (List.suffix_cons _ _)
        | cons a l =>
          simp only
          cases c.lookup t with
          | error f => exact List.suffix_refl _
          | ok d =>
            cases d with
            | none => exact (ih _ _ _).trans (List.suffix_cons _ _)
            | some d => exact List.suffix_refl _

theorem finishOptionSt_suffix (c : Cmdline) (ps : List StParser) (o : Opt) (other : List Str) : (c.finishOptionSt ps o other).2 <:+ other := by
  unfold finishOptionSt
  by_cases h0 : o.stringKey = []
  · rw [if_pos h0]; exact List.suffix_refl _
  · rw [if_neg h0]
    simp only
    cases c.lookup o.stringKey with
    | error f => exact List.suffix_refl _
    | ok d =>
      cases d with
      | none =>
        simp only
        by_cases hu : c.allowUnregistered = true
        · rw [if_pos hu]; exact List.suffix_refl _
        · rw [if_neg hu]; exact List.suffix_refl _
      | some d =>
        simp only
        by_cases hm : o.value.length + other.length ≥ d.semantic.minTokens
        · rw [if_pos hm]
          by_cases hx : o.value ≠ [] ∧ d.semantic.maxTokens = 0
          · rw [if_pos hx]; exact List.suffix_refl _
          · rw [if_neg hx]; exact c.grabSt_suffix _ _ _ _ _
        · rw [if_neg hm]; exact List.suffix_refl _

theorem finishAllSt_suffix (c : Cmdline) (ps : List StParser) (os : List Opt) (args : List Str) : (c.finishAllSt ps os args).2 <:+ args := by
  induction os with
  | nil => rw [finishAllSt]; exact List.suffix_refl _
  | cons o os ih =>
    cases os with
    | nil =>
      have := c.finishOptionSt_suffix ps o args
      rw [finishAllSt]
      revert this
      generalize c.finishOptionSt ps o args = x
      obtain ⟨x, l⟩ := x
      cases x <;> exact id
    | cons o' os =>
      rw [finishAllSt]
      · generalize c.finishOptionSt ps o [] = x
        obtain ⟨x, l⟩ := x
        cases x with
        | error f => exact List.suffix_refl _
        | ok a =>
          simp only
          revert ih
          generalize c.finishAllSt ps (o' :: os) args = y
          obtain ⟨y, l⟩ := y
          cases y <;> exact id
      · simp

theorem sticky_ambiguous (alts : List Str) (n t : Str) (s : Nat) : Sticky ((errAmbiguous alts).addContext n t s) := by
  refine ⟨_, rfl, .inl ⟨alts, ?_⟩⟩
  unfold OptErr.addContext
  simp only [OptErr.setSubst]
  split <;> rfl

/-- What a style parser does to the vector. -/
def Tame (c : Cmdline) (p : StParser) : Prop :=
  ∀ a as, match p (a :: as) with
    | (.ok os, l) => (os = [] ∧ l = a :: as) ∨ l = as ∨ l = [] ∧ ∀ o ∈ os, o.stringKey = []
    | (.error f, l) => Sticky f ∧ (l = a :: as ∨ ∃ a', Undisguised c a a' ∧ l = a' :: as)

/-- On an empty vector it fails. -/
def Fails (p : StParser) : Prop := ∃ l, p [] = (.error (.ub .emptyArgs), l)

theorem not_plain_ub (u : UB) : ¬ Standalone (.ub u) := by
  rintro ⟨e, h, _⟩; cases h

theorem not_plain_sticky {f : Fail} (h : Sticky f) : ¬ Standalone f := by
  rintro ⟨e, rfl, h'⟩
  obtain ⟨e', he, h⟩ := h
  cases he
  rcases h with ⟨alts, h⟩ | h <;> rcases h' with h' | h' <;> rw [h] at h' <;> cases h'

theorem not_plain_addContext {f : Fail} (h : ¬ Standalone f) (n t : Str) (s : Nat) : ¬ Standalone (f.addContext n t s) := by
  rintro ⟨e', he, h'⟩
  cases f with
  | opt e =>
    cases he
    refine h ⟨e, rfl, ?_⟩
    have : (e.addContext n t s).cls = e.cls := by
      unfold OptErr.addContext
      simp only [OptErr.setSubst]
      split <;> rfl
    rw [← this]
    exact h'
  | _ => cases he

theorem not_plain_missing : ¬ Standalone (errSyntax .missingParameter) := by
  rintro ⟨e, he, h⟩
  cases he
  rcases h with h | h <;> cases h

theorem lookaheadSt_plain (c : Cmdline) (ps : List StParser) (h : ∀ p ∈ ps, Tame c p ∧ Fails p) (args : List Str) (ha : args.length ≤ 1) (f : Fail)
    (hf : lookaheadSt ps args = .error f) : ¬ Standalone f := by
  induction ps generalizing args with
  | nil => cases hf
  | cons p ps ih =>
    have ih := ih fun q hq => h q (by simp [hq])
    rw [lookaheadSt] at hf
    cases args with
    | nil =>
      obtain ⟨l, hl⟩ := (h p (by simp)).2
      rw [hl] at hf
      cases hf
      exact not_plain_ub _
    | cons a as =>
      have ht := (h p (by simp)).1 a as
      revert ht
      cases hp : p (a :: as) with
      | mk x l =>
        rw [hp] at hf
        cases x with
        | error g => intro ht; cases hf; exact not_plain_sticky ht.1
        | ok os =>
          simp only at hf ⊢
          intro ht
          by_cases hos : os = []
          · rw [if_pos hos] at hf
            refine ih l ?_ hf
            rcases ht with ⟨_, rfl⟩ | rfl | ⟨rfl, _⟩
            · exact ha
            · simp only [List.length_cons] at ha; omega
            · exact Nat.zero_le _
          · rw [if_neg hos] at hf; cases hf

theorem grabSt_plain (c : Cmdline) (ps : List StParser) (h : ∀ p ∈ ps, Tame c p ∧ Fails p) (n : Nat) (other : List Str) (o : Opt) (orig : Str) (f : Fail) (l : List Str)
    (hf : c.grabSt ps n other o orig = (.error f, l)) : ¬ Standalone f := by
  induction n generalizing other o orig with
  | zero => rw [grabSt] at hf; cases hf
  | succ n ih =>
    cases other with
    | nil => rw [grabSt] at hf; cases hf
    | cons t ts =>
      rw [grabSt] at hf
      cases hl : lookaheadSt ps [t] with
      | error g => rw [hl] at hf; cases hf; exact not_plain_addContext (c.lookaheadSt_plain ps h _ (by simp) _ hl) _ _ _
      | ok os =>
        rw [hl] at hf
        cases os with
        | nil => exact ih _ _ _ hf
        | cons a os =>
          simp only at hf
          cases hk : c.lookup t with
          | error g =>
            rw [hk] at hf
            obtain ⟨alts, rfl⟩ := lookup_error hk
            cases hf
            exact not_plain_sticky (sticky_ambiguous _ _ _ _)
          | ok d =>
            rw [hk] at hf
            cases d with
            | none => exact ih _ _ _ hf
            | some d => cases hf; exact not_plain_addContext not_plain_missing _ _ _

theorem finishOptionSt_plain (c : Cmdline) (ps : List StParser) (h : ∀ p ∈ ps, Tame c p ∧ Fails p) (o : Opt) (other : List Str) (f : Fail) (l : List Str)
    (hf : c.finishOptionSt ps o other = (.error f, l)) (hp : Standalone f) : l = other := by
  unfold finishOptionSt at hf
  by_cases h0 : o.stringKey = []
  · rw [if_pos h0] at hf; cases hf
  · rw [if_neg h0] at hf
    simp only at hf
    cases hk : c.lookup o.stringKey with
    | error g => rw [hk] at hf; cases hf; rfl
    | ok d =>
      rw [hk] at hf
      cases d with
      | none =>
        simp only at hf
        by_cases hu : c.allowUnregistered = true
        · rw [if_pos hu] at hf; cases hf
        · rw [if_neg hu] at hf; cases hf; rfl
      | some d =>
        simp only at hf
        by_cases hm : o.value.length + other.length ≥ d.semantic.minTokens
        · rw [if_pos hm] at hf
          by_cases hx : o.value ≠ [] ∧ d.semantic.maxTokens = 0
          · rw [if_pos hx] at hf; cases hf; rfl
          · rw [if_neg hx] at hf; exact absurd hp (c.grabSt_plain ps h _ _ _ _ _ _ hf)
        · rw [if_neg hm] at hf; cases hf; rfl

theorem finishAllSt_plain (c : Cmdline) (ps : List StParser) (h : ∀ p ∈ ps, Tame c p ∧ Fails p) (os : List Opt) (args : List Str) (f : Fail) (l : List Str)
    (hf : c.finishAllSt ps os args = (.error f, l)) (hp : Standalone f) : l = args := by
  induction os with
  | nil => rw [finishAllSt] at hf; cases hf
  | cons o os ih =>
    cases os with
    | nil =>
      rw [finishAllSt] at hf
      cases hx : c.finishOptionSt ps o args with
      | mk x l' =>
        rw [hx] at hf
        cases x with
        | error g => cases hf; exact c.finishOptionSt_plain ps h _ _ _ _ hx hp
        | ok a => cases hf
    | cons o' os =>
      rw [finishAllSt] at hf
      · cases hx : c.finishOptionSt ps o [] with
        | mk x l' =>
          rw [hx] at hf
          cases x with
          | error g => cases hf; rfl
          | ok a =>
            simp only at hf
            cases hy : c.finishAllSt ps (o' :: os) args with
            | mk y l' =>
              rw [hy] at hf
              cases y with
              | error g => cases hf; exact ih hy
              | ok a => cases hf
      · simp

theorem sticky_empty (name tok : Str) (s : Nat) : Sticky (errSyntax .emptyAdjacentParameter name tok s) :=
  ⟨_, rfl, .inr rfl⟩

theorem sticky_addContext {f : Fail} (h : Sticky f) (n t : Str) (s : Nat) : Sticky (f.addContext n t s) := by
  obtain ⟨e, rfl, h⟩ := h
  refine ⟨_, rfl, ?_⟩
  have : (e.addContext n t s).cls = e.cls := by
    unfold OptErr.addContext
    simp only [OptErr.setSubst]
    split <;> rfl
  rw [this]
  exact h

theorem parseLong_cases (c : Cmdline) (a : Str) (as : List Str) :
    c.parseLong (a :: as) = .ok ([], a :: as) ∨ (∃ o, c.parseLong (a :: as) = .ok ([o], as)) ∨ ∃ f, c.parseLong (a :: as) = .error f ∧ Sticky f := by
  rw [parseLong]
  by_cases h : a.length ≥ 3 ∧ a[0]? = some '-' ∧ a[1]? = some '-'
  · rw [if_pos h]
    cases findChar a '=' with
    | none => exact .inr (.inl ⟨_, rfl⟩)
    | some p =>
      simp only
      by_cases h2 : List.drop (p + 1) a = []
      · rw [if_pos h2]; exact .inr (.inr ⟨_, rfl, sticky_empty _ _ _⟩)
      · rw [if_neg h2]; exact .inr (.inl ⟨_, rfl⟩)
  · rw [if_neg h]; exact .inl rfl

theorem tame_long (c : Cmdline) : Tame c (keeping c.parseLong) := by
  intro a as
  unfold keeping
  rcases c.parseLong_cases a as with h | ⟨o, h⟩ | ⟨f, h, hs⟩
  · rw [h]; exact .inl ⟨rfl, rfl⟩
  · rw [h]; exact .inr (.inl rfl)
  · rw [h]; exact ⟨hs, .inl rfl⟩

theorem shortLoop_sticky (c : Cmdline) (tok name adj : Str) (f : Fail) (h : c.shortLoop tok name adj = .error f) : Sticky f := by
  have key : ∀ name f, c.findShort name = .error f → Sticky f := by
    intro name f h
    unfold findShort at h
    cases hf : findNothrow c.desc name false false (active c.style Style.shortCaseInsensitive) with
    | ok d => rw [hf] at h; cases h
    | error g =>
      rw [hf] at h
      obtain ⟨alts, rfl⟩ := findNothrow_error hf
      cases h
      exact sticky_ambiguous _ _ _ _
  induction adj generalizing name f with
  | nil =>
    rw [shortLoop] at h
    cases hf : c.findShort name with
    | error g => rw [hf] at h; cases h; exact key _ _ hf
    | ok d => rw [hf] at h; cases h
  | cons b adj ih =>
    rw [shortLoop] at h
    cases hf : c.findShort name with
    | error g => rw [hf] at h; cases h; exact key _ _ hf
    | ok d =>
      rw [hf] at h
      simp only at h
      by_cases ht : c.takesNoValue d = true
      · rw [if_pos ht] at h
        cases hl : c.shortLoop tok ['-', b] adj with
        | error g => rw [hl] at h; cases h; exact ih _ _ hl
        | ok os => rw [hl] at h; cases h
      · rw [if_neg ht] at h; cases h

theorem tame_short (c : Cmdline) : Tame c (keeping c.parseShort) := by
  intro a as
  unfold keeping
  rw [parseShort]
  by_cases h : a.length ≥ 2 ∧ a[0]? = some '-' ∧ a[1]? ≠ some '-'
  · rw [if_pos h]
    cases hl : c.shortLoop a (substr a 0 2) (a.drop 2) with
    | error f => exact ⟨c.shortLoop_sticky _ _ _ _ hl, .inl rfl⟩
    | ok os => exact .inr (.inl rfl)
  · rw [if_neg h]; exact .inl ⟨rfl, rfl⟩

theorem tame_dos (c : Cmdline) : Tame c (keeping parseDos) := by
  intro a as
  unfold keeping
  rw [parseDos]
  by_cases h : a.length ≥ 2 ∧ a[0]? = some '/'
  · rw [if_pos h]; exact .inr (.inl rfl)
  · rw [if_neg h]; exact .inl ⟨rfl, rfl⟩

theorem tame_terminator (c : Cmdline) : Tame c (keeping parseTerminator) := by
  intro a as
  unfold keeping
  rw [parseTerminator]
  by_cases h : a = ['-', '-']
  · rw [if_pos h]; exact .inr (.inr ⟨rfl, by simp⟩)
  · rw [if_neg h]; exact .inl ⟨rfl, rfl⟩

theorem tame_additional (c : Cmdline) (f : Str → Str × Str) : Tame c (keeping (parseAdditional f)) := by
  intro a as
  unfold keeping
  rw [parseAdditional]
  by_cases h : (f a).1 = []
  · rw [if_pos h]; exact .inl ⟨rfl, rfl⟩
  · rw [if_neg h]; exact .inr (.inl rfl)

theorem tame_disguised (c : Cmdline) (he : active c.style Style.allowLongDisguise = true) : Tame c c.parseDisguisedSt := by
  intro a as
  rw [parseDisguisedSt]
  by_cases h : a.length ≥ 2 ∧ ((a[0]? = some '-' ∧ a[1]? ≠ some '-') ∨ (active c.style Style.allowSlashForShort = true ∧ a[0]? = some '/'))
  · rw [if_pos h]
    cases hl : c.lookup (disguisedName a) with
    | error f =>
      obtain ⟨alts, rfl⟩ := lookup_error hl
      exact ⟨sticky_ambiguous _ _ _ _, .inl rfl⟩
    | ok d =>
      cases d with
      | none => exact .inl ⟨rfl, rfl⟩
      | some d =>
        simp only [keeping]
        rcases c.parseLong_cases (undisguise a) as with h' | ⟨o, h'⟩ | ⟨f, h', hs⟩
        · exfalso
          revert h'
          rw [parseLong, if_pos]
          · cases findChar (undisguise a) '=' with
            | none => simp
            | some p => simp only; split <;> simp
          · match a, h with
            | x :: y :: r, h =>
              have hx : x = '-' ∨ x = '/' := by
                rcases h.2 with h | h
                · exact .inl (by simpa using h.1)
                · exact .inr (by simpa using h.2)
              rcases hx with rfl | rfl <;> simp [undisguise]
        · rw [h']; exact .inr (.inl rfl)
        · rw [h']
          refine ⟨sticky_addContext hs _ _ _, .inr ⟨undisguise a, ⟨he, ?_⟩, rfl⟩⟩
          match a, h with
          | x :: y :: r, h =>
            refine ⟨x, y :: r, rfl, ?_, ?_⟩
            · rcases h.2 with h | h
              · exact .inl ⟨by simpa using h.1, by simpa using h.2⟩
              · exact .inr (by simpa using h.2)
            · have hx : x = '-' ∨ x = '/' := by
                rcases h.2 with h | h
                · exact .inl (by simpa using h.1)
                · exact .inr (by simpa using h.2)
              rcases hx with rfl | rfl <;> rfl
  · rw [if_neg h]; exact .inl ⟨rfl, rfl⟩

theorem tame_parsers (c : Cmdline) : ∀ p ∈ c.parsersSt, Tame c p ∧ Fails p := by
  intro p hp
  simp only [parsersSt, List.mem_append, List.mem_singleton] at hp
  rcases hp with ((((hp | hp) | hp) | hp) | hp) | hp
  · cases hf : c.additional with
    | none => simp [hf] at hp
    | some f => simp only [hf, List.mem_singleton] at hp; subst hp; exact ⟨c.tame_additional f, ⟨_, rfl⟩⟩
  · split at hp
    · simp only [List.mem_singleton] at hp; subst hp; exact ⟨c.tame_long, ⟨_, rfl⟩⟩
    · simp at hp
  · split at hp
    · rename_i he; simp only [List.mem_singleton] at hp; subst hp; exact ⟨c.tame_disguised he, ⟨_, rfl⟩⟩
    · simp at hp
  · split at hp
    · simp only [List.mem_singleton] at hp; subst hp; exact ⟨c.tame_short, ⟨_, rfl⟩⟩
    · simp at hp
  · split at hp
    · simp only [List.mem_singleton] at hp; subst hp; exact ⟨c.tame_dos, ⟨_, rfl⟩⟩
    · simp at hp
  · subst hp; exact ⟨c.tame_terminator, ⟨_, rfl⟩⟩

theorem finishAllSt_positional (c : Cmdline) (ps : List StParser) (os : List Opt) (args : List Str) (h : ∀ o ∈ os, o.stringKey = []) :
    c.finishAllSt ps os args = (.ok os, args) := by
  induction os with
  | nil => rw [finishAllSt]
  | cons o os ih =>
    have ho : ∀ l, c.finishOptionSt ps o l = (.ok o, l) := by
      intro l
      unfold finishOptionSt
      rw [if_pos (h o (by simp))]
    cases os with
    | nil => rw [finishAllSt, ho]
    | cons o' os =>
      rw [finishAllSt, ho, ih fun q hq => h q (by simp [hq])]
      simp

theorem tryParsersSt_left (c : Cmdline) (all ps : List StParser) (hall : ∀ p ∈ all, Tame c p ∧ Fails p) (h : ∀ p ∈ ps, Tame c p ∧ Fails p) (a : Str) (as : List Str) :
    match c.tryParsersSt all ps (a :: as) with
    | (.ok _, l) => l <:+ as
    | (.error f, l) => LeftAt c f a as l := by
  induction ps with
  | nil => exact List.suffix_refl _
  | cons p ps ih =>
    have hp := (h p (by simp)).1 a as
    have ih := ih fun q hq => h q (by simp [hq])
    rw [tryParsersSt]
    revert hp
    cases p (a :: as) with
    | mk x l =>
      cases x with
      | error f => exact .inr
      | ok os =>
        rintro (⟨rfl, rfl⟩ | rfl | ⟨rfl, hz⟩)
        · simp only [finishAllSt]
          rw [if_neg (by simp)]
          revert ih
          cases c.tryParsersSt all ps (a :: as) with
          | mk y l => cases y <;> exact id
        · simp only
          have hf := c.finishAllSt_suffix all os l
          have hpl := c.finishAllSt_plain all hall os l
          revert hf hpl
          cases c.finishAllSt all os l with
          | mk y l2 =>
            intro hf hpl
            replace hf : l2 <:+ l := hf
            cases y with
            | error f => exact .inl ⟨hf, fun hq => hpl f l2 rfl hq⟩
            | ok os' =>
              simp only
              rw [if_pos (by have := hf.length_le; simp only [List.length_cons]; omega)]
              exact hf
        · simp only
          rw [c.finishAllSt_positional all os [] hz]
          simp only
          rw [if_pos (by simp)]
          exact List.nil_suffix

theorem loopSt_left (c : Cmdline) (n : Nat) (args : List Str) (hn : args.length ≤ n) (f : Fail) (l : List Str) (h : c.loopSt n args = (.error f, l)) :
    ∃ pre a as, args = pre ++ a :: as ∧ LeftAt c f a as l := by
  induction n generalizing args with
  | zero => cases args with
    | nil => rw [loopSt] at h; cases h
    | cons a args => simp at hn
  | succ n ih =>
    cases args with
    | nil => rw [loopSt] at h; cases h
    | cons a args =>
      rw [loopSt] at h
      have hl := c.tryParsersSt_left c.parsersSt c.parsersSt c.tame_parsers c.tame_parsers a args
      revert hl
      cases hx : c.tryParsersSt c.parsersSt c.parsersSt (a :: args) with
      | mk x l' =>
        rw [hx] at h
        cases x with
        | error g =>
          intro hl
          cases h
          exact ⟨[], a, args, rfl, hl⟩
        | ok os =>
          intro hl
          simp only at h hl
          cases hy : c.loopSt n l' with
          | mk y l'' =>
            rw [hy] at h
            cases y with
            | ok more => cases h
            | error g =>
              cases h
              obtain ⟨pre, b, bs, rfl, hb⟩ := ih l' (by have := hl.length_le; simp only [List.length_cons] at hn; omega) hy
              obtain ⟨q, rfl⟩ := hl
              exact ⟨a :: (q ++ pre), b, bs, by simp, hb⟩

end Cmdline
end PO
