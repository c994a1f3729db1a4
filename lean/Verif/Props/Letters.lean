import Verif.Spec.Letters
import Mathlib.Data.List.Forall2
import Verif.Props.Flags
/-
C152: to the command line parser no letter is special.
-/
namespace PO
open Spec

namespace Letters

variable {π : Char → Char} {c c' : Cmdline}

theorem ren_inj (hi : ∀ a b, π a = π b → a = b) {s t : Str} (h : ren π s = ren π t) : s = t :=
  List.map_injective_iff.2 (fun a b => hi a b) h

theorem ren_eq_iff (hi : ∀ a b, π a = π b → a = b) {s t : Str} : ren π s = ren π t ↔ s = t := ⟨ren_inj hi, fun h => by rw [h]⟩

theorem char_iff (hi : ∀ a b, π a = π b → a = b) {x a : Char} (hx : π x = x) : π a = x ↔ a = x :=
  ⟨fun h => hi a x (by rw [h, hx]), fun h => by rw [h, hx]⟩

theorem get_iff (hi : ∀ a b, π a = π b → a = b) {x : Char} (hx : π x = x) (s : Str) (i : Nat) : (ren π s)[i]? = some x ↔ s[i]? = some x := by
  unfold ren
  rw [List.getElem?_map]
  cases s[i]? with
  | none => simp
  | some a => simp [char_iff hi hx]

theorem last_iff (hi : ∀ a b, π a = π b → a = b) {x : Char} (hx : π x = x) (s : Str) : (ren π s).getLast? = some x ↔ s.getLast? = some x := by
  unfold ren
  rw [List.getLast?_map]
  cases s.getLast? with
  | none => simp
  | some a => simp [char_iff hi hx]

theorem findChar_ren (hi : ∀ a b, π a = π b → a = b) {x : Char} (hx : π x = x) (s : Str) : findChar (ren π s) x = findChar s x := by
  induction s with
  | nil => rfl
  | cons a s ih =>
    show findChar (π a :: ren π s) x = _
    rw [findChar, findChar, ih]
    simp only [char_iff hi hx]

theorem isPrefixOf_ren (hi : ∀ a b, π a = π b → a = b) (p s : Str) : (ren π p).isPrefixOf (ren π s) = p.isPrefixOf s := by
  rw [Bool.eq_iff_iff, List.isPrefixOf_iff_prefix, List.isPrefixOf_iff_prefix]
  constructor
  · rintro ⟨r, h⟩
    have := List.map_eq_append_iff.1 h.symm
    obtain ⟨l₁, l₂, h1, h2, -⟩ := this
    rw [ren_inj hi h2] at h1
    exact ⟨l₂, h1.symm⟩
  · rintro ⟨r, rfl⟩
    exact ⟨ren π r, (List.map_append).symm⟩

theorem findSub_ren (hi : ∀ a b, π a = π b → a = b) (s p : Str) : findSub (ren π s) (ren π p) = findSub s p := by
  induction s with
  | nil =>
    show findSub [] (ren π p) = _
    rw [findSub, findSub]
    simp [ren]
  | cons a s ih =>
    have h := isPrefixOf_ren hi p (a :: s)
    show findSub (π a :: ren π s) (ren π p) = _
    rw [findSub, findSub, ih]
    rw [show (ren π p).isPrefixOf (π a :: ren π s) = _ from h]

theorem substr_ren (s : Str) (a b : Nat) : substr (ren π s) a b = ren π (substr s a b) := by
  unfold substr ren
  rw [List.map_take, List.map_drop]

theorem toLower_ren (h : ∀ a, π a.toLower = (π a).toLower) (s : Str) : toLower (ren π s) = ren π (toLower s) := by
  unfold toLower ren
  rw [List.map_map, List.map_map]
  exact List.map_congr_left fun a _ => (h a).symm

theorem fold_ren (b : Bool) (h : b = true → ∀ a, π a.toLower = (π a).toLower) (s : Str) :
    (if b then toLower (ren π s) else ren π s) = ren π (if b then toLower s else s) := by
  cases b with
  | true => exact toLower_ren (h rfl) s
  | false => rfl

theorem matchLongs_ren (hi : ∀ a b, π a = π b → a = b) (hs : π '*' = '*') (li : Bool) (hl : li = true → ∀ a, π a.toLower = (π a).toLower)
    (o : Str) (ap : Bool) (ns : List Str) (r : MatchResult) :
    OptionDesc.matchLongs (ren π o) ap li (ns.map (ren π)) r = OptionDesc.matchLongs o ap li ns r := by
  induction ns generalizing r with
  | nil => rfl
  | cons n ns ih =>
    rw [List.map_cons, OptionDesc.matchLongs, OptionDesc.matchLongs]
    dsimp only
    rw [fold_ren li hl]
    generalize (if li = true then toLower n else n) = m
    simp only [ih, last_iff hi hs, substr_ren, findSub_ren hi, ren_eq_iff hi, List.length_map]
    have : ren π m = [] ↔ m = [] := by simp [ren]
    simp only [this]

theorem match_ren (hi : ∀ a b, π a = π b → a = b) (hs : π '*' = '*') (li si : Bool) (hl : li = true ∨ si = true → ∀ a, π a.toLower = (π a).toLower)
    (d : OptionDesc) (n : Str) (ap : Bool) : (renOption π d).match (ren π n) ap li si = d.match n ap li si := by
  unfold OptionDesc.match renOption
  dsimp only
  rw [fold_ren li (fun h => hl (.inl h)), fold_ren si (fun h => hl (.inr h)), matchLongs_ren hi hs li (fun h => hl (.inl h))]
  simp only [ren_eq_iff hi]

theorem key_ren (hi : ∀ a b, π a = π b → a = b) (hs : π '*' = '*') (d : OptionDesc) (n : Str) : (renOption π d).key (ren π n) = ren π (d.key n) := by
  unfold OptionDesc.key renOption
  dsimp only
  cases d.longNames with
  | nil => rfl
  | cons m ms =>
    rw [List.map_cons]
    dsimp only
    rw [findChar_ren hi hs]
    split <;> rfl

theorem findLoop_ren (hi : ∀ a b, π a = π b → a = b) (hs : π '*' = '*') (li si : Bool)
    (hl : li = true ∨ si = true → ∀ a, π a.toLower = (π a).toLower) (n : Str) (ap : Bool) (ds : List OptionDesc) (found : Option OptionDesc)
    (full apx : List Str) :
    findLoop (ren π n) ap li si (ds.map (renOption π)) (found.map (renOption π)) (full.map (ren π)) (apx.map (ren π)) =
      ((findLoop n ap li si ds found full apx).1.map (renOption π), (findLoop n ap li si ds found full apx).2.1.map (ren π),
        (findLoop n ap li si ds found full apx).2.2.map (ren π)) := by
  induction ds generalizing found full apx with
  | nil => rfl
  | cons d ds ih =>
    rw [List.map_cons, findLoop, findLoop, match_ren hi hs li si hl]
    cases d.match n ap li si with
    | noMatch => exact ih _ _ _
    | fullMatch =>
      have := ih (some d) (full ++ [d.key n]) apx
      rw [List.map_append, List.map_singleton, ← key_ren hi hs] at this
      exact this
    | approximateMatch =>
      have := ih (if full = [] then some d else found) full (apx ++ [d.key n])
      rw [List.map_append, List.map_singleton, ← key_ren hi hs] at this
      dsimp only
      rw [← this]
      congr 1
      have h0 : full.map (ren π) = [] ↔ full = [] := by simp
      simp only [h0]
      split <;> rfl

theorem findNothrow_ren (hi : ∀ a b, π a = π b → a = b) (hs : π '*' = '*') (li si : Bool)
    (hl : li = true ∨ si = true → ∀ a, π a.toLower = (π a).toLower) (n : Str) (ap : Bool) (ds : List OptionDesc) :
    findNothrow (ds.map (renOption π)) (ren π n) ap li si = renWith π (Option.map (renOption π)) (findNothrow ds n ap li si) := by
  unfold findNothrow
  have h := findLoop_ren hi hs li si hl n ap ds none [] []
  rw [show findLoop (ren π n) ap li si (ds.map (renOption π)) none [] [] = _ from h]
  obtain ⟨found, full, apx⟩ := findLoop n ap li si ds none [] []
  dsimp only
  rw [List.length_map, List.length_map]
  have h0 : full.map (ren π) = [] ↔ full = [] := by simp
  simp only [h0]
  split
  · rfl
  · split
    · rfl
    · rfl

theorem set_ren (m : SMap Str) (k v : Str) : SMap.set (renSubst π m) k (ren π v) = renSubst π (SMap.set m k v) := by
  induction m with
  | nil => rfl
  | cons x m ih =>
    obtain ⟨k', v'⟩ := x
    show SMap.set ((k', ren π v') :: renSubst π m) k (ren π v) = _
    rw [SMap.set, SMap.set]
    split
    · rfl
    · split
      · rw [ih]; rfl
      · rfl

theorem noOptionName_ren (k : ErrClass) : (renClass π k).noOptionName = k.noOptionName := by cases k <;> rfl

theorem addContext_ren (f : Fail) (n t : Str) (s : Nat) : (renFail π f).addContext (ren π n) (ren π t) s = renFail π (f.addContext n t s) := by
  cases f
  case opt e =>
    unfold renFail Fail.addContext OptErr.addContext OptErr.setSubst
    dsimp only
    rw [noOptionName_ren]
    split
    · simp only [set_ren]
    · simp only [set_ren]
  all_goals rfl

theorem syntax_ren (k : SyntaxKind) (n t : Str) (s : Nat) : errSyntax k (ren π n) (ren π t) s = renFail π (errSyntax k n t s) := by
  unfold errSyntax OptErr.mk' renFail
  dsimp only
  rw [show ([] : SMap Str) = renSubst π [] from rfl, set_ren, set_ren]
  rfl

/-! ### The style parsers -/

abbrev renPair (π : Char → Char) (r : List Opt × List Str) : List Opt × List Str := (r.1.map (renOpt π), r.2.map (ren π))

/-- The second does what the first does, in other letters. -/
def Follows (π : Char → Char) (p p' : StyleParser) : Prop := ∀ args, p' (args.map (ren π)) = renWith π (renPair π) (p args)

theorem ren_eq_nil (s : Str) : ren π s = [] ↔ s = [] := by simp [ren]

variable (H : Harmless π c.style) (R : Renamed π c c')
include H R

omit H in
theorem prefix_ren : c'.canonicalPrefix = c.canonicalPrefix := by
  unfold Cmdline.canonicalPrefix
  rw [R.style]

theorem lookup_ren (n : Str) : c'.lookup (ren π n) = renWith π (Option.map (renOption π)) (c.lookup n) := by
  unfold Cmdline.lookup
  rw [R.style, R.desc]
  exact findNothrow_ren H.inj H.star _ _ H.lower n _ _

theorem findShort_ren (n : Str) : c'.findShort (ren π n) = renWith π (Option.map (renOption π)) (c.findShort n) := by
  unfold Cmdline.findShort
  rw [R.style, R.desc, findNothrow_ren H.inj H.star _ _ (fun h => H.lower (.inr (h.resolve_left (by decide)))), prefix_ren R]
  cases findNothrow c.desc n false false (active c.style Style.shortCaseInsensitive) with
  | error f => exact congrArg Except.error (addContext_ren f n n _)
  | ok d => rfl

theorem long_ren : Follows π c.parseLong c'.parseLong := by
  intro args
  cases args with
  | nil => rfl
  | cons t r =>
    rw [List.map_cons, Cmdline.parseLong, Cmdline.parseLong]
    simp only [get_iff H.inj H.dash, List.length_map, findChar_ren H.inj H.equals, prefix_ren R]
    split
    · cases findChar t '=' with
      | none =>
        dsimp only
        simp [renWith, renOpt, ren]
      | some p =>
        dsimp only
        rw [substr_ren, ← List.map_drop]
        simp only [ren_eq_nil]
        split
        · rw [syntax_ren]; rfl
        · rfl
    · rfl

omit H in
theorem takesNoValue_ren (d : Option OptionDesc) : c'.takesNoValue (d.map (renOption π)) = c.takesNoValue d := by
  unfold Cmdline.takesNoValue
  rw [R.style]
  cases d <;> rfl

theorem shortLoop_ren (t n a : Str) : c'.shortLoop (ren π t) (ren π n) (ren π a) = renWith π (List.map (renOpt π)) (c.shortLoop t n a) := by
  induction a generalizing n with
  | nil =>
    show c'.shortLoop (ren π t) (ren π n) [] = _
    rw [Cmdline.shortLoop, Cmdline.shortLoop, findShort_ren H R]
    cases c.findShort n with
    | error f => rfl
    | ok d => rfl
  | cons a adj ih =>
    show c'.shortLoop (ren π t) (ren π n) (π a :: ren π adj) = _
    rw [Cmdline.shortLoop, Cmdline.shortLoop, findShort_ren H R]
    cases c.findShort n with
    | error f => rfl
    | ok d =>
      dsimp only [renWith]
      rw [takesNoValue_ren R]
      have h := ih ['-', a]
      have h' : ren π ['-', a] = ['-', π a] := by simp [ren, H.dash]
      rw [h'] at h
      rw [h]
      split
      · cases c.shortLoop t ['-', a] adj with
        | error f => rfl
        | ok os => rfl
      · rfl

theorem short_ren : Follows π c.parseShort c'.parseShort := by
  intro args
  cases args with
  | nil => rfl
  | cons t r =>
    rw [List.map_cons, Cmdline.parseShort, Cmdline.parseShort]
    simp only [ne_eq, get_iff H.inj H.dash, List.length_map, substr_ren, ← List.map_drop]
    rw [show List.map π (List.drop 2 t) = ren π (List.drop 2 t) from rfl, shortLoop_ren H R]
    split
    · cases c.shortLoop t (substr t 0 2) (t.drop 2) with
      | error f => rfl
      | ok os => rfl
    · rfl

omit R in
theorem dos_ren : Follows π Cmdline.parseDos Cmdline.parseDos := by
  intro args
  cases args with
  | nil => rfl
  | cons t r =>
    rw [List.map_cons, Cmdline.parseDos, Cmdline.parseDos]
    simp only [get_iff H.inj H.slash, List.length_map, substr_ren, ← List.map_drop]
    rw [show List.map π (List.drop 2 t) = ren π (List.drop 2 t) from rfl]
    simp only [ren_eq_nil]
    split
    · refine congrArg Except.ok (Prod.ext ?_ rfl)
      refine congrArg (fun x => [x]) ?_
      unfold renOpt
      dsimp only
      congr 1
      · show _ = π '-' :: _
        rw [H.dash]
      · split <;> rfl
    · rfl

omit R in
theorem disguisedName_ren (t : Str) : Cmdline.disguisedName (ren π t) = ren π (Cmdline.disguisedName t) := by
  unfold Cmdline.disguisedName
  rw [findChar_ren H.inj H.equals]
  cases findChar t '=' with
  | none => exact List.map_drop.symm
  | some p => exact substr_ren _ _ _

omit R in
theorem undisguise_ren (t : Str) : Cmdline.undisguise (ren π t) = ren π (Cmdline.undisguise t) := by
  have other : ∀ s : Str, s[0]? ≠ some '/' → Cmdline.undisguise s = '-' :: s := by
    intro s hs
    unfold Cmdline.undisguise
    split
    · exact absurd rfl hs
    · rfl
  by_cases h : t[0]? = some '/'
  · cases t with
    | nil => cases h
    | cons a r =>
      have h : a = '/' := by simpa using h
      rw [h]
      show Cmdline.undisguise (π '/' :: ren π r) = π '-' :: π '-' :: ren π r
      rw [H.slash, H.dash]
      rfl
  · rw [other t h, other (ren π t) (by rw [ne_eq, get_iff H.inj H.slash]; exact h)]
    show _ = π '-' :: ren π t
    rw [H.dash]

theorem disguised_ren : Follows π c.parseDisguised c'.parseDisguised := by
  intro args
  cases args with
  | nil => rfl
  | cons t r =>
    rw [List.map_cons, Cmdline.parseDisguised, Cmdline.parseDisguised]
    simp only [ne_eq, get_iff H.inj H.dash, get_iff H.inj H.slash, List.length_map, R.style, disguisedName_ren H, lookup_ren H R, prefix_ren R,
      undisguise_ren H]
    split
    · cases c.lookup (Cmdline.disguisedName t) with
      | error f => exact congrArg Except.error (addContext_ren f t t _)
      | ok d =>
        cases d with
        | none => rfl
        | some d =>
          have h := long_ren H R (Cmdline.undisguise t :: r)
          rw [List.map_cons] at h
          dsimp only [renWith, Option.map]
          rw [h]
          cases c.parseLong (Cmdline.undisguise t :: r) with
          | error f => exact congrArg Except.error (addContext_ren f _ _ _)
          | ok q => rfl
    · rfl

omit R in
theorem terminator_ren : Follows π Cmdline.parseTerminator Cmdline.parseTerminator := by
  intro args
  cases args with
  | nil => rfl
  | cons t r =>
    rw [List.map_cons, Cmdline.parseTerminator, Cmdline.parseTerminator]
    have h : ren π t = ['-', '-'] ↔ t = ['-', '-'] := by
      have := ren_eq_iff (π := π) H.inj (s := t) (t := ['-', '-'])
      rwa [show ren π ['-', '-'] = ['-', '-'] by simp [ren, H.dash]] at this
    simp only [h]
    split
    · simp [renWith, renOpt, ren, List.map_map, Function.comp_def]
    · rfl

omit R H in
theorem additional_ren {f g : Str → Str × Str} (h : ∀ t, g (ren π t) = (ren π (f t).1, ren π (f t).2)) :
    Follows π (Cmdline.parseAdditional f) (Cmdline.parseAdditional g) := by
  intro args
  cases args with
  | nil => rfl
  | cons t r =>
    rw [List.map_cons, Cmdline.parseAdditional, Cmdline.parseAdditional, h]
    dsimp only
    simp only [ren_eq_nil]
    split
    · rfl
    · refine congrArg Except.ok (Prod.ext ?_ rfl)
      refine congrArg (fun x => [x]) ?_
      unfold renOpt
      dsimp only
      congr 1
      split <;> rfl

theorem parsers_ren : List.Forall₂ (Follows π) c.parsers c'.parsers := by
  have one : ∀ (b : Bool) (p p' : StyleParser), Follows π p p' → List.Forall₂ (Follows π) (if b = true then [p] else []) (if b = true then [p'] else []) := by
    intro b p p' h
    cases b with
    | true => exact .cons h .nil
    | false => exact .nil
  unfold Cmdline.parsers
  rw [R.style]
  refine List.rel_append (List.rel_append (List.rel_append (List.rel_append (List.rel_append (List.rel_append ?_ ?_) ?_) ?_) ?_) ?_) ?_
  · have h := R.styleParser
    cases h1 : c.styleParser <;> cases h2 : c'.styleParser <;> rw [h1, h2] at h
    · exact .nil
    · cases h
    · cases h
    · exact .cons h .nil
  · have h := R.additional
    cases h1 : c.additional <;> cases h2 : c'.additional <;> rw [h1, h2] at h
    · exact .nil
    · cases h
    · cases h
    · exact .cons (additional_ren h) .nil
  · exact one _ _ _ (long_ren H R)
  · exact one _ _ _ (disguised_ren H R)
  · exact one _ _ _ (short_ren H R)
  · exact one _ _ _ (dos_ren H)
  · exact .cons (terminator_ren H) .nil

/-! ### The run -/

omit H R in
theorem lookahead_ren {ps ps' : List StyleParser} (h : List.Forall₂ (Follows π) ps ps') (args : List Str) :
    Cmdline.lookahead ps' (args.map (ren π)) = renWith π (List.map (renOpt π)) (Cmdline.lookahead ps args) := by
  induction h generalizing args with
  | nil => rfl
  | @cons p p' ps ps' hp _ ih =>
    rw [Cmdline.lookahead, Cmdline.lookahead, hp]
    cases p args with
    | error f => rfl
    | ok r =>
      obtain ⟨os, left⟩ := r
      dsimp only [renWith, renPair]
      have h0 : os.map (renOpt π) = [] ↔ os = [] := by simp
      simp only [h0]
      by_cases h1 : os = []
      · rw [if_pos h1, if_pos h1, ih]
        rfl
      · rw [if_neg h1, if_neg h1]

abbrev renOne (π : Char → Char) (r : Opt × List Str) : Opt × List Str := (renOpt π r.1, r.2.map (ren π))

theorem grab_ren {ps ps' : List StyleParser} (h : List.Forall₂ (Follows π) ps ps') (n : Nat) (other : List Str) (o : Opt) (orig : Str) :
    c'.grab ps' n (other.map (ren π)) (renOpt π o) (ren π orig) = renWith π (renOne π) (c.grab ps n other o orig) := by
  induction n generalizing other o orig with
  | zero => rw [Cmdline.grab, Cmdline.grab]; rfl
  | succ n ih =>
    cases other with
    | nil => rw [Cmdline.grab, List.map_nil, Cmdline.grab]; rfl
    | cons t ts =>
      rw [List.map_cons, Cmdline.grab, Cmdline.grab, lookup_ren H R, prefix_ren R]
      have hl := lookahead_ren h [t]
      rw [List.map_singleton] at hl
      have ih' := fun orig => ih ts { o with value := o.value ++ [t], originalTokens := o.originalTokens ++ [t] } orig
      have ho : renOpt π { o with value := o.value ++ [t], originalTokens := o.originalTokens ++ [t] } =
          { renOpt π o with value := (renOpt π o).value ++ [ren π t], originalTokens := (renOpt π o).originalTokens ++ [ren π t] } := by
        unfold renOpt
        simp only [List.map_append, List.map_singleton]
      rw [ho] at ih'
      rw [hl]
      cases Cmdline.lookahead ps [t] with
      | error f => exact congrArg Except.error (addContext_ren f _ _ _)
      | ok os =>
        cases os with
        | nil => exact ih' orig
        | cons x xs =>
          dsimp only [renWith, List.map_cons]
          cases c.lookup t with
          | error f => exact congrArg Except.error (addContext_ren f _ _ _)
          | ok d =>
            cases d with
            | none => exact ih' t
            | some d =>
              refine congrArg Except.error ?_
              rw [← addContext_ren, ← syntax_ren]
              rfl

omit H R in
theorem origFor_ren (o : Opt) : Cmdline.origFor (renOpt π o) = ren π (Cmdline.origFor o) := by
  unfold Cmdline.origFor renOpt
  dsimp only
  cases o.originalTokens with
  | nil => rfl
  | cons t ts => rfl

theorem finishOption_ren {ps ps' : List StyleParser} (h : List.Forall₂ (Follows π) ps ps') (o : Opt) (other : List Str) :
    c'.finishOption ps' (renOpt π o) (other.map (ren π)) = renWith π (renOne π) (c.finishOption ps o other) := by
  unfold Cmdline.finishOption
  have hk : (renOpt π o).stringKey = ren π o.stringKey := rfl
  have hv : (renOpt π o).value = o.value.map (ren π) := rfl
  have hv0 : o.value.map (ren π) = [] ↔ o.value = [] := by simp
  simp only [hk, hv, ne_eq, hv0, ren_eq_nil, lookup_ren H R, prefix_ren R, R.unregistered, origFor_ren, List.length_map]
  split
  · rfl
  · cases c.lookup o.stringKey with
    | error f => exact congrArg Except.error (addContext_ren f _ _ _)
    | ok d =>
      cases d with
      | none =>
        dsimp only [renWith, Option.map]
        split
        · rfl
        · refine congrArg Except.error ?_
          rw [← addContext_ren]
          rfl
      | some d =>
        dsimp only [renWith, Option.map]
        have hkey := key_ren H.inj H.star d o.stringKey
        have hmin : (renOption π d).semantic = d.semantic := rfl
        rw [hkey, hmin]
        split
        · split
          · refine congrArg Except.error ?_
            rw [← addContext_ren, ← syntax_ren]
            rfl
          · exact grab_ren H R h _ other { o with stringKey := d.key o.stringKey } _
        · refine congrArg Except.error ?_
          rw [← addContext_ren, ← syntax_ren]
          rfl

theorem finishAll_ren {ps ps' : List StyleParser} (h : List.Forall₂ (Follows π) ps ps') (os : List Opt) (args : List Str) :
    c'.finishAll ps' (os.map (renOpt π)) (args.map (ren π)) = renWith π (renPair π) (c.finishAll ps os args) := by
  induction os with
  | nil => rw [List.map_nil, Cmdline.finishAll, Cmdline.finishAll]; rfl
  | cons o os ih =>
    cases os with
    | nil =>
      rw [List.map_singleton, Cmdline.finishAll, Cmdline.finishAll, finishOption_ren H R h]
      cases c.finishOption ps o args with
      | error f => rfl
      | ok r => rfl
    | cons o2 os =>
      rw [List.map_cons, Cmdline.finishAll.eq_3 c _ args o (o2 :: os) (by simp),
        Cmdline.finishAll.eq_3 c' _ _ _ (List.map (renOpt π) (o2 :: os)) (by simp), ih]
      have := finishOption_ren H R h o []
      rw [List.map_nil] at this
      rw [this]
      cases c.finishOption ps o [] with
      | error f => rfl
      | ok r =>
        dsimp only [renWith]
        cases c.finishAll ps (o2 :: os) args with
        | error f => rfl
        | ok q => rfl

theorem tryParsers_ren {all all' ps ps' : List StyleParser} (ha : List.Forall₂ (Follows π) all all') (h : List.Forall₂ (Follows π) ps ps')
    (args : List Str) : c'.tryParsers all' ps' (args.map (ren π)) = renWith π (renPair π) (c.tryParsers all ps args) := by
  induction h generalizing args with
  | nil =>
    cases args with
    | nil => rw [List.map_nil, Cmdline.tryParsers, Cmdline.tryParsers]; rfl
    | cons a args => rw [List.map_cons, Cmdline.tryParsers, Cmdline.tryParsers]; rfl
  | @cons p p' ps ps' hp _ ih =>
    rw [Cmdline.tryParsers, Cmdline.tryParsers, hp]
    cases p args with
    | error f => rfl
    | ok r =>
      obtain ⟨os, left⟩ := r
      dsimp only [renWith, renPair]
      rw [finishAll_ren H R ha]
      cases c.finishAll all os left with
      | error f => rfl
      | ok q =>
        obtain ⟨os', left'⟩ := q
        dsimp only [renWith, renPair]
        rw [List.length_map, List.length_map, ih]
        by_cases h1 : left'.length ≠ args.length
        · rw [if_pos h1, if_pos h1]
        · rw [if_neg h1, if_neg h1]
          cases c.tryParsers all ps left' with
          | error f => rfl
          | ok w => simp [renWith, renPair]

theorem loop_ren (fuel : Nat) (args : List Str) : c'.loop fuel (args.map (ren π)) = renWith π (List.map (renOpt π)) (c.loop fuel args) := by
  induction fuel generalizing args with
  | zero =>
    cases args with
    | nil => rw [List.map_nil, Cmdline.loop, Cmdline.loop]; rfl
    | cons a args => rw [List.map_cons, Cmdline.loop, Cmdline.loop]; rfl
  | succ fuel ih =>
    cases args with
    | nil => rw [List.map_nil, Cmdline.loop, Cmdline.loop]; rfl
    | cons a args =>
      have hp := parsers_ren H R
      have hs : c'.step ((a :: args).map (ren π)) = renWith π (renPair π) (c.step (a :: args)) := tryParsers_ren H R hp hp (a :: args)
      rw [List.map_cons] at hs
      rw [List.map_cons, Cmdline.loop, Cmdline.loop, hs]
      cases c.step (a :: args) with
      | error f => rfl
      | ok r =>
        dsimp only [renWith, renPair]
        rw [ih]
        cases c.loop fuel r.2 with
        | error f => rfl
        | ok more => simp [renWith]

omit H R in
theorem absorb_ren (lim : Option Nat) (o : Opt) (os : List Opt) :
    Cmdline.absorb lim (renOpt π o) (os.map (renOpt π)) = renWith π (fun r : Opt × Nat => (renOpt π r.1, r.2)) (Cmdline.absorb lim o os) := by
  induction os generalizing lim o with
  | nil => rw [List.map_nil, Cmdline.absorb, Cmdline.absorb]; rfl
  | cons p ps ih =>
    rw [List.map_cons, Cmdline.absorb, Cmdline.absorb]
    have hk : (renOpt π p).stringKey ≠ [] ↔ p.stringKey ≠ [] := not_congr (ren_eq_nil _)
    have hpos : (renOpt π p).positionKey = p.positionKey := rfl
    simp only [hk, hpos]
    split
    · rfl
    · split
      · rfl
      · split
        · rfl
        · have hv : (renOpt π p).value = p.value.map (ren π) := rfl
          have ht : (renOpt π p).originalTokens = p.originalTokens.map (ren π) := rfl
          rw [hv, ht]
          match p.value with
          | [] => rfl
          | _ :: _ :: _ => rfl
          | [v] =>
            match p.originalTokens with
            | [] => rfl
            | _ :: _ :: _ => rfl
            | [t] =>
              have h := ih (lim.map (· - 1)) { o with value := o.value ++ [v], originalTokens := o.originalTokens ++ [t] }
              have ho : renOpt π { o with value := o.value ++ [v], originalTokens := o.originalTokens ++ [t] } =
                  { renOpt π o with value := (renOpt π o).value ++ [ren π v], originalTokens := (renOpt π o).originalTokens ++ [ren π t] } := by
                unfold renOpt
                simp only [List.map_append, List.map_singleton]
              rw [ho] at h
              dsimp only [List.map_singleton]
              rw [h]
              cases Cmdline.absorb (lim.map (· - 1)) { o with value := o.value ++ [v], originalTokens := o.originalTokens ++ [t] } ps with
              | error f => rfl
              | ok r => rfl

theorem regroup_ren (k : Nat) (os : List Opt) : c'.regroup k (os.map (renOpt π)) = renWith π (List.map (renOpt π)) (c.regroup k os) := by
  induction os generalizing k with
  | nil => rw [List.map_nil, Cmdline.regroup, Cmdline.regroup]; rfl
  | cons o os ih =>
    cases k with
    | succ k => rw [List.map_cons, Cmdline.regroup, Cmdline.regroup]; exact ih k
    | zero =>
      have cont : ∀ (o' : Opt) (k : Nat), (match c'.regroup k (os.map (renOpt π)) with | .error f => Except.error f | .ok l => .ok (renOpt π o' :: l)) =
          renWith π (List.map (renOpt π)) (match c.regroup k os with | .error f => .error f | .ok l => .ok (o' :: l)) := by
        intro o' k
        rw [ih]
        cases c.regroup k os with
        | error f => rfl
        | ok l => rfl
      rw [List.map_cons, Cmdline.regroup, Cmdline.regroup]
      dsimp only
      have hk : (renOpt π o).stringKey = ren π o.stringKey := rfl
      have ht : (renOpt π o).originalTokens = o.originalTokens.map (ren π) := rfl
      have hv : (renOpt π o).value = o.value.map (ren π) := rfl
      rw [hk, ht, hv, lookup_ren H R, prefix_ren R, List.length_map]
      by_cases h0 : o.stringKey = []
      · rw [if_pos h0, if_pos ((ren_eq_nil _).2 h0)]
        exact cont o 0
      · rw [if_neg h0, if_neg (fun h => h0 ((ren_eq_nil _).1 h))]
        cases c.lookup o.stringKey with
        | error f =>
          cases f
          case opt e =>
            dsimp only [renWith]
            cases o.originalTokens with
            | nil => rfl
            | cons t ts => exact congrArg Except.error (addContext_ren (.opt e) _ _ _)
          all_goals rfl
        | ok d =>
          cases d with
          | none => exact cont o 0
          | some d =>
            dsimp only [renWith, Option.map]
            have hmin : (renOption π d).semantic = d.semantic := rfl
            rw [hmin]
            by_cases h1 : d.semantic.minTokens < d.semantic.maxTokens ∧ o.value.length < d.semantic.maxTokens
            · rw [if_pos h1, if_pos h1, absorb_ren]
              cases Cmdline.absorb (Cmdline.takeLimit d.semantic.maxTokens o.value.length) o os with
              | error f => rfl
              | ok r => exact cont r.1 r.2
            · rw [if_neg h1, if_neg h1]
              exact cont o 0

omit H R in
theorem assign_ren (n : Int) (os : List Opt) : Cmdline.assignPositions n (os.map (renOpt π)) = (Cmdline.assignPositions n os).map (renOpt π) := by
  induction os generalizing n with
  | nil => rfl
  | cons o os ih =>
    rw [List.map_cons, Cmdline.assignPositions, Cmdline.assignPositions, ih, ih]
    have hk : (renOpt π o).stringKey = ren π o.stringKey := rfl
    rw [hk]
    by_cases h0 : o.stringKey = []
    · rw [if_pos h0, if_pos ((ren_eq_nil _).2 h0)]
      rfl
    · rw [if_neg h0, if_neg (fun h => h0 ((ren_eq_nil _).1 h))]
      rfl

omit H R in
theorem name_ren (p : Positional) (n : Nat) (os : List Opt) :
    Cmdline.namePositional (renPositional π p) n (os.map (renOpt π)) = renWith π (List.map (renOpt π)) (Cmdline.namePositional p n os) := by
  have hfull : ∀ n, (renPositional π p).full n = p.full n := by
    intro n
    unfold Positional.full Positional.maxTotalCount renPositional
    simp only [ren_eq_nil, List.length_map]
  have hname : ∀ n, (renPositional π p).nameForPosition n = renWith π (ren π) (p.nameForPosition n) := by
    intro n
    unfold Positional.nameForPosition renPositional
    dsimp only
    rw [List.getElem?_map]
    cases p.names[n]? with
    | some x => rfl
    | none =>
      simp only [ren_eq_nil, Option.map_none]
      split <;> rfl
  induction os generalizing n with
  | nil => rfl
  | cons o os ih =>
    rw [List.map_cons, Cmdline.namePositional, Cmdline.namePositional, hfull, hname, ih, ih]
    have hpos : (renOpt π o).positionKey = o.positionKey := rfl
    rw [hpos]
    split
    · split
      · rfl
      · cases p.nameForPosition n with
        | error f => rfl
        | ok x =>
          dsimp only [renWith]
          cases Cmdline.namePositional p (n + 1) os with
          | error f => rfl
          | ok l => rfl
    · cases Cmdline.namePositional p n os with
      | error f => rfl
      | ok l => rfl

theorem setCase_ren (o : Opt) : c'.setCase (renOpt π o) = renOpt π (c.setCase o) := by
  unfold Cmdline.setCase
  have hk : (renOpt π o).stringKey = ren π o.stringKey := rfl
  rw [hk, R.style]
  simp only [List.length_map, ne_eq, get_iff H.inj H.dash]
  split <;> rfl

theorem run_ren (args : List Str) : c'.run (args.map (ren π)) = renWith π (List.map (renOpt π)) (c.run args) := by
  unfold Cmdline.run Cmdline.runFuel
  rw [loop_ren H R, List.length_map]
  cases c.loop (args.length + 1) args with
  | error f => rfl
  | ok os =>
    dsimp only [renWith]
    unfold Cmdline.finalize
    rw [regroup_ren H R]
    cases c.regroup 0 os with
    | error f => rfl
    | ok os =>
      dsimp only [renWith]
      rw [assign_ren]
      unfold Cmdline.applyPositional
      rw [R.positional]
      have hmap : ∀ l : List Opt, (l.map (renOpt π)).map c'.setCase = (l.map c.setCase).map (renOpt π) := by
        intro l
        rw [List.map_map, List.map_map]
        exact List.map_congr_left fun o _ => setCase_ren H R o
      cases c.positional with
      | none => exact congrArg Except.ok (hmap _)
      | some p =>
        dsimp only [Option.map]
        rw [name_ren]
        cases Cmdline.namePositional p 0 (Cmdline.assignPositions 0 os) with
        | error f => rfl
        | ok l => exact congrArg Except.ok (hmap _)

end Letters

open Letters

/-- A description and a command line written in other letters give the same options, or the same exception, in these letters: the parser
knows no character but `-`, `/`, `=` and `*`, if letter case matters. -/
theorem C152_letters (π : Char → Char) (c c' : Cmdline) (H : Harmless π c.style) (R : Renamed π c c') (args : List Str) :
    c'.run (args.map (ren π)) = renWith π (List.map (renOpt π)) (c.run args) := run_ren H R args

namespace Letters
/-- A switch with one long name. -/
def only (n : Str) : OptionDesc := ⟨[], [n], [], Test.unt⟩

/-- A parser that reads each token as the name of an option. -/
def naming (ds : List OptionDesc) : Cmdline := { style := 0, desc := ds, additional := some fun t => (t, []) }

theorem naming_two (a b : Char) (h : a ≠ b) : ∃ r, (naming [only [a], only [b]]).run [[a]] = .ok r := by
  have hf : (naming [only [a], only [b]]).lookup [a] = .ok (some (only [a])) := by
    simp [naming, Cmdline.lookup, active, findNothrow, findLoop, OptionDesc.match, OptionDesc.matchLongs, only, findSub, substr, List.isPrefixOf, Ne.symm h]
    by_cases ha : a = '*' <;> by_cases hb : b = '*' <;> simp_all
  have hk : (only [a]).key [a] = [a] := by
    unfold OptionDesc.key only
    dsimp only
    split <;> rfl
  have hs : (naming [only [a], only [b]]).step [[a]] = .ok ([{ stringKey := [a] }], []) := by
    unfold Cmdline.step
    rw [show (naming [only [a], only [b]]).parsers = [Cmdline.parseAdditional fun t => (t, []), Cmdline.parseTerminator] by simp [naming, Cmdline.parsers, active]]
    rw [Cmdline.tryParsers, Cmdline.parseAdditional]
    simp [Cmdline.finishAll, Cmdline.finishOption, hf, hk]
    simp [only, Test.unt, untypedValue, Cmdline.grab]
  unfold Cmdline.run Cmdline.runFuel
  simp [Cmdline.loop, hs, Cmdline.finalize, Cmdline.regroup, hf]
  simp [only, Test.unt, untypedValue, naming, Cmdline.applyPositional]

theorem naming_same (a : Char) : ∃ f, (naming [only [a], only [a]]).run [[a]] = .error f := by
  have hf : ∃ f, (naming [only [a], only [a]]).lookup [a] = .error f := by
    simp [naming, Cmdline.lookup, active, findNothrow, findLoop, OptionDesc.match, OptionDesc.matchLongs, only]
  obtain ⟨f, hf⟩ := hf
  have hs : ∃ f, (naming [only [a], only [a]]).step [[a]] = .error f := by
    unfold Cmdline.step
    rw [show (naming [only [a], only [a]]).parsers = [Cmdline.parseAdditional fun t => (t, []), Cmdline.parseTerminator] by simp [naming, Cmdline.parsers, active]]
    rw [Cmdline.tryParsers, Cmdline.parseAdditional]
    simp [Cmdline.finishAll, Cmdline.finishOption, hf]
  obtain ⟨f, hs⟩ := hs
  unfold Cmdline.run Cmdline.runFuel
  simp [Cmdline.loop, hs]

variable {π : Char → Char}

theorem renamed_naming (ds : List OptionDesc) : Renamed π (naming ds) (naming (ds.map (renOption π))) where
  style := rfl
  unregistered := rfl
  desc := rfl
  positional := rfl
  additional := fun _ => rfl
  styleParser := trivial

/-- A parser without extras, and the same in other letters. -/
def bare (s : Nat) (u : Bool) (ds : List OptionDesc) : Cmdline := { style := s, allowUnregistered := u, desc := ds }

theorem renamed_bare (s : Nat) (u : Bool) (ds : List OptionDesc) : Renamed π (bare s u ds) (bare s u (ds.map (renOption π))) where
  style := rfl
  unregistered := rfl
  desc := rfl
  positional := rfl
  additional := trivial
  styleParser := trivial

/-- Whatever two letters are swapped: the claim needs different letters to stay different. -/
theorem needs_inj (h : ∀ (c c' : Cmdline) (args : List Str), active c.style Style.longCaseInsensitive = false →
      active c.style Style.shortCaseInsensitive = false → Renamed π c c' → c'.run (args.map (ren π)) = renWith π (List.map (renOpt π)) (c.run args))
    (a b : Char) (hab : π a = π b) : a = b := by
  apply Classical.byContradiction
  intro hne
  have h1 := h _ _ [[a]] (by simp [naming, active]) (by simp [naming, active]) (renamed_naming (π := π) [only [a], only [b]])
  obtain ⟨r, hr⟩ := naming_two a b hne
  obtain ⟨f, hf⟩ := naming_same (π a)
  rw [hr] at h1
  have h2 : (naming ([only [a], only [b]].map (renOption π))) = naming [only [π a], only [π a]] := by
    show naming [only [π a], only [π b]] = _
    rw [hab]
  rw [h2, show ([[a]].map (ren π)) = [[π a]] from rfl, hf] at h1
  cases h1

/-- A token that is not of the form of an option is a positional argument. -/
theorem bare_dash (x y : Char) (h : x ≠ '-') : ∃ r, (bare Style.allowLong false []).run [[x, x, y]] = .ok r := by
  unfold Cmdline.run Cmdline.runFuel
  simp [Cmdline.loop, Cmdline.step, bare, Cmdline.parsers, active, Style.allowLong, Style.allowLongDisguise, Style.allowShort, Cmdline.tryParsers, Cmdline.parseLong, h,
    Cmdline.finishAll, Cmdline.parseTerminator, Cmdline.finalize, Cmdline.regroup, Cmdline.applyPositional]

theorem bare_eq (y : Char) (h : y ≠ '=') : ∃ r, (bare Style.allowLong true []).run [['-', '-', y]] = .ok r := by
  unfold Cmdline.run Cmdline.runFuel
  simp [Cmdline.loop, Cmdline.step, bare, Cmdline.parsers, active, Style.allowLong, Style.allowLongDisguise, Style.allowShort, Cmdline.tryParsers, Cmdline.parseLong, h,
    Cmdline.finishAll, Cmdline.finalize, Cmdline.regroup, Cmdline.applyPositional, Cmdline.finishOption, Cmdline.lookup,
    findNothrow, findLoop, findChar]

theorem bare_star (y z : Char) (h : y ≠ '*') (hz : z ≠ '=') (hyz : y ≠ z) : ∃ f, (bare Style.allowLong false [only [y]]).run [['-', '-', z]] = .error f := by
  have hl : (bare Style.allowLong false [only [y]]).lookup [z] = .ok none := by
    simp [bare, Cmdline.lookup, active, findNothrow, findLoop, OptionDesc.match, OptionDesc.matchLongs, only, h, hyz, Style.allowLong, Style.allowGuessing,
      Style.longCaseInsensitive, Style.shortCaseInsensitive]
  have hp : (bare Style.allowLong false [only [y]]).parsers = [(bare Style.allowLong false [only [y]]).parseLong, Cmdline.parseTerminator] := by
    simp [bare, Cmdline.parsers, active, Style.allowLong, Style.allowLongDisguise, Style.allowShort]
  have hu : (bare Style.allowLong false [only [y]]).allowUnregistered = false := rfl
  unfold Cmdline.run Cmdline.runFuel
  simp [Cmdline.loop, Cmdline.step, hp, Cmdline.tryParsers, Cmdline.parseLong, Cmdline.finishAll, Cmdline.finishOption, hl, findChar, hz, hu]

theorem bare_slash (y z : Char) (h : y ≠ '/') : (bare (Style.allowShort ||| Style.allowSlashForShort) true []).run [[y, z]] =
    .ok [{ positionKey := 0, value := [[y, z]], originalTokens := [[y, z]] }] ∨ y = '-' := by
  by_cases hd : y = '-'
  · exact .inr hd
  · left
    unfold Cmdline.run Cmdline.runFuel
    simp [Cmdline.loop, Cmdline.step, bare, Cmdline.parsers, active, Style.allowLong, Style.allowLongDisguise, Style.allowShort, Style.allowDashForShort,
      Style.allowSlashForShort, Cmdline.tryParsers, Cmdline.parseDos, h, hd, Cmdline.assignPositions, Cmdline.setCase, Style.shortCaseInsensitive,
      Cmdline.finishAll, Cmdline.parseTerminator, Cmdline.finalize, Cmdline.regroup, Cmdline.applyPositional]

end Letters

/-- Which letters may be replaced, if letter case matters: the claim holds for every parser and command line exactly if different characters
stay different and `-`, `/`, `=` and `*` stay themselves. -/
theorem C152_letters_iff (π : Char → Char) :
    (∀ (c c' : Cmdline) (args : List Str), active c.style Style.longCaseInsensitive = false → active c.style Style.shortCaseInsensitive = false →
      Renamed π c c' → c'.run (args.map (ren π)) = renWith π (List.map (renOpt π)) (c.run args)) ↔
    (∀ a b, π a = π b → a = b) ∧ π '-' = '-' ∧ π '/' = '/' ∧ π '=' = '=' ∧ π '*' = '*' := by
  constructor
  · intro h
    have hi := needs_inj h
    have hd : π '-' = '-' := by
      apply Classical.byContradiction
      intro hne
      have h1 := h _ _ ["--x".toList] rfl rfl (renamed_bare (π := π) Style.allowLong false [])
      obtain ⟨r, hr⟩ := bare_dash (π '-') (π 'x') hne
      have e : ["--x".toList].map (ren π) = [[π '-', π '-', π 'x']] := rfl
      rw [e, List.map_nil, hr] at h1
      cases h1
    have he : π '=' = '=' := by
      apply Classical.byContradiction
      intro hne
      have h1 := h _ _ ["--=".toList] rfl rfl (renamed_bare (π := π) Style.allowLong true [])
      obtain ⟨r, hr⟩ := bare_eq (π '=') hne
      have e : ["--=".toList].map (ren π) = [['-', '-', π '=']] := by
        show [[π '-', π '-', π '=']] = _
        rw [hd]
      rw [e, List.map_nil, hr] at h1
      cases h1
    refine ⟨hi, hd, ?_, he, ?_⟩
    · apply Classical.byContradiction
      intro hne
      have h1 := h _ _ ["/x".toList] rfl rfl (renamed_bare (π := π) (Style.allowShort ||| Style.allowSlashForShort) true [])
      have e : ["/x".toList].map (ren π) = [[π '/', π 'x']] := rfl
      rcases bare_slash (π '/') (π 'x') hne with hr | hr
      · rw [e, List.map_nil, hr] at h1
        injection h1 with h1
        injection h1 with h1
        injection h1 with h1
        cases h1
      · exact absurd (hi '/' '-' (by rw [hr, hd])) (by decide)
    · apply Classical.byContradiction
      intro hne
      have h1 := h _ _ ["--x".toList] rfl rfl (renamed_bare (π := π) Style.allowLong false [only ['*']])
      have e : ["--x".toList].map (ren π) = [['-', '-', π 'x']] := by
        show [[π '-', π '-', π 'x']] = _
        rw [hd]
      obtain ⟨f, hf⟩ := bare_star (π '*') (π 'x') hne (fun h => absurd (hi 'x' '=' (by rw [h, he])) (by decide))
        (fun h => absurd (hi _ _ h) (by decide))
      have e2 : [only ['*']].map (renOption π) = [only [π '*']] := rfl
      rw [e, e2, hf] at h1
      cases h1
  · rintro ⟨hi, hd, hs, he, ht⟩ c c' args h1 h2 R
    refine C152_letters π c c' ⟨hi, hd, hs, he, ht, fun h => ?_⟩ R args
    rw [h1, h2] at h
    rcases h with h | h <;> cases h

/-- `a` and `b` swapped, in upper and lower case. -/
def Letters.swapped (x : Char) : Char := if x = 'a' then 'b' else if x = 'b' then 'a' else if x = 'A' then 'B' else if x = 'B' then 'A' else x

theorem Letters.swapped_swapped (x : Char) : swapped (swapped x) = x := by
  unfold swapped
  by_cases h1 : x = 'a'
  · subst h1; decide
  by_cases h2 : x = 'b'
  · subst h2; decide
  by_cases h3 : x = 'A'
  · subst h3; decide
  by_cases h4 : x = 'B'
  · subst h4; decide
  simp [h1, h2, h3, h4]

/-- `--bar=1 -a x` for options `bar` and `cab,a` is `--abr=1 -b x` for `abr` and `cba,b`. -/
example : let c : Cmdline := { style := Style.defaultStyle, desc := [Test.od "bar" (Test.sem Test.vstr), Test.od "cab,a" (Test.sem Test.vstr)] }
    let c' : Cmdline := { style := Style.defaultStyle, desc := [Test.od "abr" (Test.sem Test.vstr), Test.od "cba,b" (Test.sem Test.vstr)] }
    Harmless swapped c.style ∧ Renamed swapped c c' ∧
    c.run [Test.L "--bar=1", Test.L "-a", Test.L "x"] = .ok [{ stringKey := Test.L "bar", value := [Test.L "1"], originalTokens := [Test.L "--bar=1"] },
      { stringKey := Test.L "cab", value := [Test.L "x"], originalTokens := [Test.L "-a", Test.L "x"] }] ∧
    c'.run [Test.L "--abr=1", Test.L "-b", Test.L "x"] = .ok [{ stringKey := Test.L "abr", value := [Test.L "1"], originalTokens := [Test.L "--abr=1"] },
      { stringKey := Test.L "cba", value := [Test.L "x"], originalTokens := [Test.L "-b", Test.L "x"] }] := by
  refine ⟨⟨fun a b h => ?_, by decide, by decide, by decide, by decide, fun h => absurd h (by decide)⟩, ⟨rfl, rfl, rfl, rfl, trivial, trivial⟩, rfl, rfl⟩
  have := congrArg swapped h
  rwa [swapped_swapped, swapped_swapped] at this

end PO
