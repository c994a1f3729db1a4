import Verif.Spec.DeclOrder
import Verif.Props.Lookup
/-
Parsing with the options declared in another order.
-/
namespace PO.DeclOrder
open Spec

/-- The same outcome, but for the order in which alternatives are listed. -/
def Upto {α : Type} (r r' : Except Fail α) : Prop :=
  match r, r' with
  | .ok a, .ok b => a = b
  | .error f, .error g => SameButOrder f g
  | _, _ => False

theorem Upto.rfl {α : Type} {r : Except Fail α} : Upto r r := by
  cases r with
  | ok a => exact Eq.refl a
  | error f => exact .refl f

theorem Upto.cases {α : Type} {r r' : Except Fail α} (h : Upto r r') :
    (∃ a, r = .ok a ∧ r' = .ok a) ∨ (∃ f g, r = .error f ∧ r' = .error g ∧ SameButOrder f g) := by
  cases r with
  | ok a =>
    cases r' with
    | ok b => exact .inl ⟨a, Eq.refl _, by rw [show a = b from h]⟩
    | error g => exact h.elim
  | error f =>
    cases r' with
    | ok b => exact h.elim
    | error g => exact .inr ⟨f, g, Eq.refl _, Eq.refl _, h⟩

theorem addContext {f g : Fail} (h : SameButOrder f g) (n t : Str) (k : Nat) : SameButOrder (f.addContext n t k) (g.addContext n t k) := by
  cases h with
  | refl => exact .refl _
  | ambiguous e alts alts' hp =>
    have : ∀ as, Fail.addContext (.opt { e with cls := .ambiguousOption as }) n t k =
        .opt { (e.setSubst (str% "original_token") t) with cls := .ambiguousOption as, style := k } := by
      intro as
      rfl
    rw [this, this]
    exact .ambiguous { (e.setSubst (str% "original_token") t) with style := k } _ _ hp

variable {c : Cmdline} {D : List OptionDesc}

theorem find (opts opts' : List OptionDesc) (hp : opts.Perm opts') (name : Str) (ap li si : Bool) :
    Upto (findNothrow opts name ap li si) (findNothrow opts' name ap li si) := by
  obtain ⟨h1, h2⟩ := C02_order_irrelevant opts opts' hp name ap li si
  cases hr : findNothrow opts name ap li si with
  | ok r => rw [(h1 r).1 hr]; exact Eq.refl _
  | error f =>
    obtain ⟨alts, alts', hpa, rfl, h'⟩ := h2 f hr
    rw [h']
    exact .ambiguous (OptErr.mk' .unknownOption) _ _ hpa

theorem lookup (hp : c.desc.Perm D) (n : Str) : Upto (c.lookup n) (({ c with desc := D } : Cmdline).lookup n) := find _ _ hp _ _ _ _

theorem findShort (hp : c.desc.Perm D) (n : Str) : Upto (c.findShort n) (({ c with desc := D } : Cmdline).findShort n) := by
  unfold Cmdline.findShort
  dsimp only
  rcases (find _ _ hp n false false (active c.style Style.shortCaseInsensitive)).cases with ⟨a, h1, h2⟩ | ⟨f, g, h1, h2, h3⟩
  · rw [h1, h2]; exact Upto.rfl
  · rw [h1, h2]; exact addContext h3 _ _ _

theorem shortLoop (hp : c.desc.Perm D) (tok n adj : Str) : Upto (c.shortLoop tok n adj) (({ c with desc := D } : Cmdline).shortLoop tok n adj) := by
  induction adj generalizing n with
  | nil =>
    rw [Cmdline.shortLoop, Cmdline.shortLoop]
    rcases (findShort hp n).cases with ⟨a, h1, h2⟩ | ⟨f, g, h1, h2, h3⟩
    · rw [h1, h2]; exact Upto.rfl
    · rw [h1, h2]; exact h3
  | cons a adj ih =>
    rw [Cmdline.shortLoop, Cmdline.shortLoop]
    rcases (findShort hp n).cases with ⟨d, h1, h2⟩ | ⟨f, g, h1, h2, h3⟩
    · rw [h1, h2]
      dsimp only
      rw [show ({ c with desc := D } : Cmdline).takesNoValue d = c.takesNoValue d from Eq.refl _]
      cases c.takesNoValue d with
      | false => exact Upto.rfl
      | true =>
        rw [if_pos (Eq.refl _), if_pos (Eq.refl _)]
        rcases (ih ['-', a]).cases with ⟨os, h1, h2⟩ | ⟨f, g, h1, h2, h3⟩
        · rw [h1, h2]; exact Upto.rfl
        · rw [h1, h2]; exact h3
    · rw [h1, h2]; exact h3

/-- Two style parsers with the same outcome. -/
def Twins (p p' : StyleParser) : Prop := ∀ args, Upto (p args) (p' args)

theorem Twins.rfl {p : StyleParser} : Twins p p := fun _ => Upto.rfl

theorem parseShort (hp : c.desc.Perm D) : Twins c.parseShort ({ c with desc := D } : Cmdline).parseShort := by
  intro args
  cases args with
  | nil => exact Upto.rfl
  | cons tok rest =>
    rw [Cmdline.parseShort, Cmdline.parseShort]
    split
    · rcases (shortLoop hp tok (substr tok 0 2) (tok.drop 2)).cases with ⟨os, h1, h2⟩ | ⟨f, g, h1, h2, h3⟩
      · rw [h1, h2]; exact Upto.rfl
      · rw [h1, h2]; exact h3
    · exact Upto.rfl

theorem parseDisguised (hp : c.desc.Perm D) : Twins c.parseDisguised ({ c with desc := D } : Cmdline).parseDisguised := by
  intro args
  cases args with
  | nil => exact Upto.rfl
  | cons tok rest =>
    rw [Cmdline.parseDisguised, Cmdline.parseDisguised]
    dsimp only
    split
    · rcases (lookup hp (Cmdline.disguisedName tok)).cases with ⟨os, h1, h2⟩ | ⟨f, g, h1, h2, h3⟩
      · rw [h1, h2]; exact Upto.rfl
      · rw [h1, h2]; exact addContext h3 _ _ _
    · exact Upto.rfl

inductive AllTwins : List StyleParser → List StyleParser → Prop
  | nil : AllTwins [] []
  | cons {p p' : StyleParser} {ps ps' : List StyleParser} : Twins p p' → AllTwins ps ps' → AllTwins (p :: ps) (p' :: ps')

theorem AllTwins.append {a a' b b' : List StyleParser} (h : AllTwins a a') (h' : AllTwins b b') : AllTwins (a ++ b) (a' ++ b') := by
  induction h with
  | nil => exact h'
  | cons h _ ih => exact .cons h ih

theorem AllTwins.rfl {a : List StyleParser} : AllTwins a a := by
  induction a with
  | nil => exact .nil
  | cons p ps ih => exact .cons Twins.rfl ih

theorem AllTwins.cond {p p' : StyleParser} (h : Twins p p') (b : Bool) : AllTwins (if b then [p] else []) (if b then [p'] else []) := by
  cases b with
  | false => exact .nil
  | true => exact .cons h .nil

theorem parsers (hp : c.desc.Perm D) : AllTwins c.parsers ({ c with desc := D } : Cmdline).parsers := by
  unfold Cmdline.parsers
  exact .append (.append (.append (.append (.append (.append .rfl .rfl) .rfl) (.cond (parseDisguised hp) _)) (.cond (parseShort hp) _)) .rfl) .rfl

theorem lookahead {ps ps' : List StyleParser} (h : AllTwins ps ps') (args : List Str) : Upto (Cmdline.lookahead ps args) (Cmdline.lookahead ps' args) := by
  induction h generalizing args with
  | nil => exact Upto.rfl
  | cons hp _ ih =>
    rw [Cmdline.lookahead, Cmdline.lookahead]
    rcases (hp args).cases with ⟨⟨os, r⟩, h1, h2⟩ | ⟨f, g, h1, h2, h3⟩
    · rw [h1, h2]
      dsimp only
      split
      · exact ih r
      · exact Upto.rfl
    · rw [h1, h2]; exact h3

theorem grab (hp : c.desc.Perm D) {ps ps' : List StyleParser} (h : AllTwins ps ps') (n : Nat) (other : List Str) (opt : Opt) (orig : Str) :
    Upto (c.grab ps n other opt orig) (({ c with desc := D } : Cmdline).grab ps' n other opt orig) := by
  induction n generalizing other opt orig with
  | zero => rw [Cmdline.grab, Cmdline.grab]; exact Upto.rfl
  | succ n ih =>
    cases other with
    | nil => rw [Cmdline.grab, Cmdline.grab]; exact Upto.rfl
    | cons t ts =>
      rw [Cmdline.grab, Cmdline.grab]
      rcases (lookahead h [t]).cases with ⟨os, h1, h2⟩ | ⟨f, g, h1, h2, h3⟩
      · rw [h1, h2]
        cases os with
        | nil => exact ih _ _ _
        | cons o os =>
          dsimp only
          rcases (lookup hp t).cases with ⟨d, h1, h2⟩ | ⟨f, g, h1, h2, h3⟩
          · rw [h1, h2]
            cases d with
            | none => exact ih _ _ _
            | some d => exact Upto.rfl
          · rw [h1, h2]; exact addContext h3 _ _ _
      · rw [h1, h2]; exact addContext h3 _ _ _

theorem finishOption (hp : c.desc.Perm D) {ps ps' : List StyleParser} (h : AllTwins ps ps') (opt : Opt) (other : List Str) :
    Upto (c.finishOption ps opt other) (({ c with desc := D } : Cmdline).finishOption ps' opt other) := by
  unfold Cmdline.finishOption
  by_cases hk : opt.stringKey = []
  · rw [if_pos hk, if_pos hk]; exact Upto.rfl
  · rw [if_neg hk, if_neg hk]
    dsimp only
    rcases (lookup hp opt.stringKey).cases with ⟨d, h1, h2⟩ | ⟨f, g, h1, h2, h3⟩
    · rw [h1, h2]
      cases d with
      | none => exact Upto.rfl
      | some d =>
        dsimp only
        split
        · split
          · exact Upto.rfl
          · exact grab hp h _ _ _ _
        · exact Upto.rfl
    · rw [h1, h2]; exact addContext h3 _ _ _

theorem finishAll (hp : c.desc.Perm D) {ps ps' : List StyleParser} (h : AllTwins ps ps') (os : List Opt) (args : List Str) :
    Upto (c.finishAll ps os args) (({ c with desc := D } : Cmdline).finishAll ps' os args) := by
  induction os with
  | nil => rw [Cmdline.finishAll, Cmdline.finishAll]; exact Upto.rfl
  | cons o os ih =>
    cases os with
    | nil =>
      rw [Cmdline.finishAll, Cmdline.finishAll]
      rcases (finishOption hp h o args).cases with ⟨d, h1, h2⟩ | ⟨f, g, h1, h2, h3⟩
      · rw [h1, h2]; exact Upto.rfl
      · rw [h1, h2]; exact h3
    | cons o2 os =>
      rw [Cmdline.finishAll.eq_3 c _ args o (o2 :: os) (by simp), Cmdline.finishAll.eq_3 _ _ args o (o2 :: os) (by simp)]
      rcases (finishOption hp h o []).cases with ⟨d, h1, h2⟩ | ⟨f, g, h1, h2, h3⟩
      · rw [h1, h2]
        dsimp only
        rcases ih.cases with ⟨d, h1, h2⟩ | ⟨f, g, h1, h2, h3⟩
        · rw [h1, h2]; exact Upto.rfl
        · rw [h1, h2]; exact h3
      · rw [h1, h2]; exact h3

theorem tryParsers (hp : c.desc.Perm D) {all all' : List StyleParser} (ha : AllTwins all all') {ps ps' : List StyleParser} (h : AllTwins ps ps')
    (args : List Str) : Upto (c.tryParsers all ps args) (({ c with desc := D } : Cmdline).tryParsers all' ps' args) := by
  induction h generalizing args with
  | nil => cases args <;> (rw [Cmdline.tryParsers, Cmdline.tryParsers]; exact Upto.rfl)
  | cons hq _ ih =>
    rw [Cmdline.tryParsers, Cmdline.tryParsers]
    rcases (hq args).cases with ⟨⟨os, r⟩, h1, h2⟩ | ⟨f, g, h1, h2, h3⟩
    · rw [h1, h2]
      dsimp only
      rcases (finishAll hp ha os r).cases with ⟨⟨os', r'⟩, h1, h2⟩ | ⟨f, g, h1, h2, h3⟩
      · rw [h1, h2]
        dsimp only
        split
        · exact Upto.rfl
        · rcases (ih r').cases with ⟨⟨os', r'⟩, h1, h2⟩ | ⟨f, g, h1, h2, h3⟩
          · rw [h1, h2]; exact Upto.rfl
          · rw [h1, h2]; exact h3
      · rw [h1, h2]; exact h3
    · rw [h1, h2]; exact h3

theorem loop (hp : c.desc.Perm D) (fuel : Nat) (args : List Str) : Upto (c.loop fuel args) (({ c with desc := D } : Cmdline).loop fuel args) := by
  induction fuel generalizing args with
  | zero => cases args <;> (rw [Cmdline.loop, Cmdline.loop]; exact Upto.rfl)
  | succ fuel ih =>
    cases args with
    | nil => rw [Cmdline.loop, Cmdline.loop]; exact Upto.rfl
    | cons a args =>
      rw [Cmdline.loop, Cmdline.loop]
      unfold Cmdline.step
      rcases (tryParsers hp (parsers hp) (parsers hp) (a :: args)).cases with ⟨⟨os', r'⟩, h1, h2⟩ | ⟨f, g, h1, h2, h3⟩
      · rw [h1, h2]
        dsimp only
        rcases (ih r').cases with ⟨d, h1, h2⟩ | ⟨f, g, h1, h2, h3⟩
        · rw [h1, h2]; exact Upto.rfl
        · rw [h1, h2]; exact h3
      · rw [h1, h2]; exact h3

theorem regroup (hp : c.desc.Perm D) (k : Nat) (os : List Opt) : Upto (c.regroup k os) (({ c with desc := D } : Cmdline).regroup k os) := by
  induction os generalizing k with
  | nil => rw [Cmdline.regroup, Cmdline.regroup]; exact Upto.rfl
  | cons o os ih =>
    cases k with
    | succ k => rw [Cmdline.regroup, Cmdline.regroup]; exact ih k
    | zero =>
      rw [Cmdline.regroup, Cmdline.regroup]
      dsimp only
      have cont : ∀ (o' : Opt) (k : Nat), Upto (match c.regroup k os with
          | .error f => .error f
          | .ok os => .ok (o' :: os)) (match ({ c with desc := D } : Cmdline).regroup k os with
          | .error f => .error f
          | .ok os => .ok (o' :: os)) := by
        intro o' k
        rcases (ih k).cases with ⟨d, h1, h2⟩ | ⟨f, g, h1, h2, h3⟩
        · rw [h1, h2]; exact Upto.rfl
        · rw [h1, h2]; exact h3
      by_cases hk : o.stringKey = []
      · rw [if_pos hk, if_pos hk]; exact cont o 0
      · rw [if_neg hk, if_neg hk]
        rcases (lookup hp o.stringKey).cases with ⟨d, h1, h2⟩ | ⟨f, g, h1, h2, h3⟩
        · rw [h1, h2]
          cases d with
          | none => exact cont o 0
          | some d =>
            dsimp only
            split
            · cases Cmdline.absorb (Cmdline.takeLimit d.semantic.maxTokens o.value.length) o os with
              | error f => exact Upto.rfl
              | ok r => exact cont r.1 r.2
            · exact cont o 0
        · rw [h1, h2]
          cases h3 with
          | refl f => cases f <;> exact Upto.rfl
          | ambiguous e alts alts' hpa =>
            dsimp only
            cases o.originalTokens with
            | nil => exact Upto.rfl
            | cons t _ => exact addContext (.ambiguous e alts alts' hpa) o.stringKey t c.canonicalPrefix

theorem run (hp : c.desc.Perm D) (args : List Str) : Upto (c.run args) (({ c with desc := D } : Cmdline).run args) := by
  unfold Cmdline.run Cmdline.runFuel
  rcases (loop hp (args.length + 1) args).cases with ⟨os, h1, h2⟩ | ⟨f, g, h1, h2, h3⟩
  · rw [h1, h2]
    dsimp only
    unfold Cmdline.finalize
    rcases (regroup hp 0 os).cases with ⟨os, h1, h2⟩ | ⟨f, g, h1, h2, h3⟩
    · rw [h1, h2]; exact Upto.rfl
    · rw [h1, h2]; exact h3
  · rw [h1, h2]; exact h3

end PO.DeclOrder
