import Verif.Spec.Mention
import Verif.Props.Lookup
/-
Parsing with an option that no token mentions.
-/
namespace PO
open Spec

theorem exacts_append (xs ys : List OptionDesc) (name : Str) (li si : Bool) :
    exacts (xs ++ ys) name li si = exacts xs name li si ++ exacts ys name li si := by
  unfold exacts; rw [List.filter_append]

theorem approximates_append (xs ys : List OptionDesc) (name : Str) (ab li si : Bool) :
    approximates (xs ++ ys) name ab li si = approximates xs name ab li si ++ approximates ys name ab li si := by
  unfold approximates; rw [List.filter_append]

theorem find_unnoticed (pre post : List OptionDesc) (d : OptionDesc) (name : Str) (ab li si : Bool)
    (h : Unnoticed (pre ++ post) d name ab li si) :
    findNothrow (pre ++ d :: post) name ab li si = findNothrow (pre ++ post) name ab li si := by
  have he : exacts (pre ++ d :: post) name li si = exacts (pre ++ post) name li si := by
    rw [exacts_append, exacts_append, exacts_cons, if_neg h.1]
  rw [C01_lookup_decision, C01_lookup_decision, he]
  by_cases ha : Approximate d name ab li
  · obtain ⟨d', hd', hx⟩ := h.2 ha
    have : exacts (pre ++ post) name li si ≠ [] := by
      intro h0
      have : d' ∈ exacts (pre ++ post) name li si := by
        unfold exacts; exact List.mem_filter.2 ⟨hd', by simpa using hx⟩
      rw [h0] at this
      cases this
    cases hx : exacts (pre ++ post) name li si with
    | nil => exact absurd hx this
    | cons x xs => cases xs <;> rfl
  · have hap : approximates (pre ++ d :: post) name ab li si = approximates (pre ++ post) name ab li si := by
      rw [approximates_append, approximates_append, approximates_cons, if_neg (fun h' => ha h'.2)]
    rw [hap]

namespace Cmdline

/-- The lookups that tokens `A` can lead to are the same with the options `D`; `K` are the names looked up. -/
structure Agrees (c : Cmdline) (D : List OptionDesc) (A : List Str) (K : Str → Prop) : Prop where
  noStyle : c.styleParser = none
  look : ∀ n, K n → ({ c with desc := D } : Cmdline).lookup n = c.lookup n
  find : ∀ a ∈ A, ∀ x ∈ a, ({ c with desc := D } : Cmdline).findShort ['-', x] = c.findShort ['-', x]
  long : ∀ r, '-' :: '-' :: r ∈ A → r.takeWhile (· ≠ '=') ≠ [] → K (r.takeWhile (· ≠ '='))
  disguised : active c.style Style.allowLongDisguise = true → ∀ x r, x = '-' ∨ x = '/' → x :: r ∈ A → r ≠ [] → K (r.takeWhile (· ≠ '='))
  token : ∀ a ∈ A, a ≠ [] → K a
  letter : ∀ a ∈ A, ∀ x ∈ a, K ['-', x]
  more : ∀ f, c.additional = some f → ∀ a ∈ A, K (f a).1
  blank : [] ∈ A → c.additional = none ∨ K []
  key : ∀ n d, K n → c.lookup n = .ok (some d) → K (d.key n)

/-- Options whose names are in `K`. -/
def KeysIn (K : Str → Prop) (os : List Opt) : Prop := ∀ o ∈ os, o.stringKey ≠ [] → K o.stringKey

/-- Two parsers do the same on tokens of `A`, give names in `K` and leave tokens of `A`. -/
def Twin (A : List Str) (K : Str → Prop) (p' p : StyleParser) : Prop :=
  ∀ args : List Str, (∀ a ∈ args, a ∈ A) → p' args = p args ∧ ∀ os rest, p args = .ok (os, rest) → KeysIn K os ∧ ∀ a ∈ rest, a ∈ A

namespace Agrees
variable {c : Cmdline} {D : List OptionDesc} {A : List Str} {K : Str → Prop}

theorem shortLoop (h : Agrees c D A K) (tok : Str) (x : Char) (adj : Str) (ha : ∃ a ∈ A, x ∈ a ∧ ∀ y ∈ adj, y ∈ a) :
    ({ c with desc := D } : Cmdline).shortLoop tok ['-', x] adj = c.shortLoop tok ['-', x] adj ∧
      ∀ os, c.shortLoop tok ['-', x] adj = .ok os → KeysIn K os := by
  obtain ⟨a, ha, hx, hy⟩ := ha
  induction adj generalizing x with
  | nil =>
    rw [Cmdline.shortLoop, Cmdline.shortLoop, h.find a ha x hx]
    refine ⟨rfl, ?_⟩
    intro os hos
    cases hf : c.findShort ['-', x] with
    | error f => rw [hf] at hos; cases hos
    | ok d =>
      rw [hf] at hos
      cases hos
      intro o ho _
      rw [List.mem_singleton] at ho
      subst ho
      exact h.letter a ha x hx
  | cons y adj ih =>
    rw [Cmdline.shortLoop, Cmdline.shortLoop, h.find a ha x hx]
    obtain ⟨h1, h2⟩ := ih y (hy y (by simp)) (fun z hz => hy z (by simp [hz]))
    rw [h1]
    refine ⟨rfl, ?_⟩
    intro os hos
    cases hf : c.findShort ['-', x] with
    | error f => rw [hf] at hos; cases hos
    | ok d =>
      rw [hf] at hos
      simp only at hos
      split at hos
      · cases hl : c.shortLoop tok ['-', y] adj with
        | error f => rw [hl] at hos; cases hos
        | ok os' =>
          rw [hl] at hos
          cases hos
          intro o ho hk
          rcases List.mem_cons.1 ho with rfl | ho
          · exact h.letter a ha x hx
          · exact h2 _ hl o ho hk
      · cases hos
        intro o ho _
        rw [List.mem_singleton] at ho
        subst ho
        exact h.letter a ha x hx

theorem parseShort (h : Agrees c D A K) : Twin A K ({ c with desc := D } : Cmdline).parseShort c.parseShort := by
  intro args hA
  cases args with
  | nil => exact ⟨rfl, nofun⟩
  | cons tok rest =>
    rw [Cmdline.parseShort, Cmdline.parseShort]
    by_cases hg : tok.length ≥ 2 ∧ tok[0]? = some '-' ∧ tok[1]? ≠ some '-'
    · rw [if_pos hg, if_pos hg]
      match tok, hg with
      | t0 :: t1 :: adj, hg =>
        have h0 : t0 = '-' := by simpa using hg.2.1
        subst h0
        obtain ⟨h1, h2⟩ := h.shortLoop ('-' :: t1 :: adj) t1 adj
          ⟨'-' :: t1 :: adj, hA _ (List.mem_cons_self ..), by simp, by intro y hy; simp [hy]⟩
        have e1 : substr ('-' :: t1 :: adj) 0 2 = ['-', t1] := by simp [substr]
        have e2 : List.drop 2 ('-' :: t1 :: adj) = adj := rfl
        rw [e1, e2, h1]
        refine ⟨rfl, ?_⟩
        intro os rest' hos
        cases hl : c.shortLoop ('-' :: t1 :: adj) ['-', t1] adj with
        | error f => rw [hl] at hos; cases hos
        | ok os' =>
          rw [hl] at hos
          cases hos
          exact ⟨h2 _ hl, fun a ha => hA a (by simp [ha])⟩
    · rw [if_neg hg, if_neg hg]
      refine ⟨rfl, ?_⟩
      intro os rest' hos
      cases hos
      exact ⟨nofun, hA⟩

theorem findChar_takeWhile (s : Str) (x : Char) : (match findChar s x with | some p => s.take p | none => s) = s.takeWhile (· ≠ x) := by
  induction s with
  | nil => rfl
  | cons y s ih =>
    rw [findChar]
    by_cases h : y = x
    · rw [if_pos h, List.takeWhile_cons]
      simp [h]
    · rw [if_neg h, List.takeWhile_cons, if_pos (by simpa using h), ← ih]
      cases findChar s x <;> rfl

/-- A long option's name is what is between the dashes and the first `=`. -/
theorem parseLong_keys (r : Str) (rest : List Str) (os : List Opt) (rest' : List Str) (h : c.parseLong (('-' :: '-' :: r) :: rest) = .ok (os, rest')) :
    ∀ o ∈ os, o.stringKey = r.takeWhile (· ≠ '=') := by
  rw [← findChar_takeWhile]
  rw [Cmdline.parseLong] at h
  have hf : findChar ('-' :: '-' :: r) '=' = (findChar r '=').map (· + 2) := by
    rw [findChar, if_neg (by decide), findChar, if_neg (by decide)]
    cases findChar r '=' <;> rfl
  rw [hf] at h
  cases hr : findChar r '=' with
  | none =>
    rw [hr] at h
    dsimp only [Option.map_none] at h
    split at h
    · cases h
      intro o ho
      rw [List.mem_singleton] at ho
      subst ho
      rfl
    · cases h
      nofun
  | some p =>
    rw [hr] at h
    dsimp only [Option.map_some] at h
    split at h
    · split at h
      · cases h
      · cases h
        intro o ho
        rw [List.mem_singleton] at ho
        subst ho
        simp [substr]
    · cases h
      nofun

theorem parseLong_rest (tok : Str) (rest : List Str) (os : List Opt) (rest' : List Str) (h : c.parseLong (tok :: rest) = .ok (os, rest'))
    (hg : tok.length ≥ 3 ∧ tok[0]? = some '-' ∧ tok[1]? = some '-') : rest' = rest := by
  rw [Cmdline.parseLong, if_pos hg] at h
  split at h
  · dsimp only at h
    split at h
    · cases h
    · cases h; rfl
  · cases h; rfl

theorem undisguise_guard (tok : Str) {P Q : Prop} (hg : tok.length ≥ 2 ∧ ((tok[0]? = some '-' ∧ P) ∨ (Q ∧ tok[0]? = some '/'))) :
    (undisguise tok).length ≥ 3 ∧ (undisguise tok)[0]? = some '-' ∧ (undisguise tok)[1]? = some '-' := by
  match tok, hg with
  | t0 :: t1 :: r, hg =>
    unfold undisguise
    split
    · rename_i e
      cases e
      simp
    · rename_i hn
      rcases hg.2 with ⟨h, _⟩ | ⟨_, h⟩
      · simp at h
        subst h
        simp
      · simp at h
        subst h
        exact absurd rfl (hn _)

theorem parseLong (h : Agrees c D A K) : Twin A K ({ c with desc := D } : Cmdline).parseLong c.parseLong := by
  intro args hA
  cases args with
  | nil => exact ⟨rfl, nofun⟩
  | cons tok rest =>
    refine ⟨rfl, ?_⟩
    intro os rest' hos
    by_cases hg : tok.length ≥ 3 ∧ tok[0]? = some '-' ∧ tok[1]? = some '-'
    · have hr := parseLong_rest _ _ _ _ hos hg
      subst hr
      match tok, hg with
      | t0 :: t1 :: r, hg =>
        have h0 : t0 = '-' := by simpa using hg.2.1
        have h1 : t1 = '-' := by simpa using hg.2.2
        subst h0 h1
        refine ⟨fun o ho hk => ?_, fun a ha => hA a (by simp [ha])⟩
        rw [parseLong_keys r _ _ _ hos o ho] at hk ⊢
        exact h.long r (hA _ (List.mem_cons_self ..)) hk
    · rw [Cmdline.parseLong, if_neg hg] at hos
      cases hos
      exact ⟨nofun, hA⟩

theorem parseDisguised (h : Agrees c D A K) (hd : active c.style Style.allowLongDisguise = true) :
    Twin A K ({ c with desc := D } : Cmdline).parseDisguised c.parseDisguised := by
  intro args hA
  cases args with
  | nil => exact ⟨rfl, nofun⟩
  | cons tok rest =>
    rw [Cmdline.parseDisguised, Cmdline.parseDisguised]
    by_cases hg : tok.length ≥ 2 ∧ ((tok[0]? = some '-' ∧ tok[1]? ≠ some '-') ∨
        (active c.style Style.allowSlashForShort = true ∧ tok[0]? = some '/'))
    · rw [if_pos hg, if_pos hg]
      have hgu := undisguise_guard tok hg
      match tok, hg with
      | t0 :: r, hg =>
        have ht0 : t0 = '-' ∨ t0 = '/' := by
          rcases hg.2 with ⟨h', _⟩ | ⟨_, h'⟩
          · exact .inl (by simpa using h')
          · exact .inr (by simpa using h')
        have hr : r ≠ [] := by
          rintro rfl
          have := hg.1
          simp at this
        have hn : disguisedName (t0 :: r) = r.takeWhile (· ≠ '=') := by
          rw [← findChar_takeWhile, disguisedName, findChar, if_neg (by rcases ht0 with e | e <;> rw [e] <;> decide)]
          cases findChar r '=' with
          | none => rfl
          | some p => simp [substr]
        have hu : undisguise (t0 :: r) = '-' :: '-' :: r := by
          rcases ht0 with e | e <;> subst e <;> rfl
        have hK : K (r.takeWhile (· ≠ '=')) := h.disguised hd t0 r ht0 (hA _ (List.mem_cons_self ..)) hr
        rw [hn, h.look _ hK]
        have hl : ({ c with desc := D } : Cmdline).parseLong (undisguise (t0 :: r) :: rest) = c.parseLong (undisguise (t0 :: r) :: rest) := rfl
        rw [hl]
        refine ⟨rfl, ?_⟩
        intro os rest' hos
        cases hf : c.lookup (r.takeWhile (· ≠ '=')) with
        | error f => rw [hf] at hos; cases hos
        | ok d =>
          rw [hf] at hos
          cases d with
          | none =>
            cases hos
            exact ⟨nofun, hA⟩
          | some d =>
            simp only at hos
            cases hp : c.parseLong (undisguise (t0 :: r) :: rest) with
            | error f => rw [hp] at hos; cases hos
            | ok q =>
              rw [hp] at hos
              cases hos
              have hrest := parseLong_rest _ _ _ _ hp hgu
              rw [hu] at hp
              refine ⟨fun o ho hk => ?_, fun a ha => ?_⟩
              · rw [parseLong_keys r _ _ _ hp o ho]
                exact hK
              · rw [hrest] at ha
                exact hA a (List.mem_cons_of_mem _ ha)
    · rw [if_neg hg, if_neg hg]
      refine ⟨rfl, ?_⟩
      intro os rest' hos
      cases hos
      exact ⟨nofun, hA⟩

theorem parseDos (h : Agrees c D A K) : Twin A K Cmdline.parseDos Cmdline.parseDos := by
  intro args hA
  refine ⟨rfl, ?_⟩
  intro os rest' hos
  cases args with
  | nil => cases hos
  | cons tok rest =>
    rw [Cmdline.parseDos] at hos
    split at hos
    · rename_i hg
      cases hos
      refine ⟨?_, fun a ha => hA a (by simp [ha])⟩
      intro o ho _
      rw [List.mem_singleton] at ho
      subst ho
      match tok, hg with
      | t0 :: t1 :: r, hg => exact h.letter _ (hA _ (List.mem_cons_self ..)) t1 (by simp)
    · cases hos
      exact ⟨nofun, hA⟩

theorem parseTerminator : Twin A K Cmdline.parseTerminator Cmdline.parseTerminator := by
  intro args hA
  refine ⟨rfl, ?_⟩
  intro os rest' hos
  cases args with
  | nil => cases hos
  | cons tok rest =>
    rw [Cmdline.parseTerminator] at hos
    split at hos
    · cases hos
      refine ⟨?_, nofun⟩
      intro o ho hk
      obtain ⟨a, _, rfl⟩ := List.mem_map.1 ho
      exact absurd rfl hk
    · cases hos
      exact ⟨nofun, hA⟩

theorem parseAdditional (h : Agrees c D A K) (f : Str → Str × Str) (hf : c.additional = some f) :
    Twin A K (Cmdline.parseAdditional f) (Cmdline.parseAdditional f) := by
  intro args hA
  refine ⟨rfl, ?_⟩
  intro os rest' hos
  cases args with
  | nil => cases hos
  | cons tok rest =>
    rw [Cmdline.parseAdditional] at hos
    split at hos
    · cases hos
      exact ⟨nofun, hA⟩
    · cases hos
      refine ⟨?_, fun a ha => hA a (by simp [ha])⟩
      intro o ho _
      rw [List.mem_singleton] at ho
      subst ho
      exact h.more f hf _ (hA _ (by simp))

/-- Lists of parsers that do the same. -/
inductive Twins (A : List Str) (K : Str → Prop) : List StyleParser → List StyleParser → Prop
  | nil : Twins A K [] []
  | cons {p' p : StyleParser} {ps' ps : List StyleParser} : Twin A K p' p → Twins A K ps' ps → Twins A K (p' :: ps') (p :: ps)

theorem Twins.append {a' a b' b : List StyleParser} (h1 : Twins A K a' a) (h2 : Twins A K b' b) : Twins A K (a' ++ b') (a ++ b) := by
  induction h1 with
  | nil => exact h2
  | cons h _ ih => exact .cons h ih

theorem Twins.cond {p' p : StyleParser} (b : Bool) (h : b = true → Twin A K p' p) : Twins A K (if b then [p'] else []) (if b then [p] else []) := by
  cases b
  · exact .nil
  · exact .cons (h rfl) .nil

theorem parsers (h : Agrees c D A K) : Twins A K ({ c with desc := D } : Cmdline).parsers c.parsers := by
  unfold Cmdline.parsers
  refine .append (.append (.append (.append (.append (.append ?_ ?_) (.cond _ fun _ => h.parseLong)) (.cond _ h.parseDisguised))
    (.cond _ fun _ => h.parseShort)) (.cond _ fun _ => h.parseDos)) (.cons parseTerminator .nil)
  · rw [h.noStyle]
    exact .nil
  · cases hf : c.additional with
    | some f => exact .cons (h.parseAdditional f hf) .nil
    | none => exact .nil

theorem lookahead {ps' ps : List StyleParser} (hp : Twins A K ps' ps) (args : List Str) (hA : ∀ a ∈ args, a ∈ A) :
    Cmdline.lookahead ps' args = Cmdline.lookahead ps args := by
  induction hp generalizing args with
  | nil => rfl
  | @cons p' p ps' ps h1 _ ih =>
    rw [Cmdline.lookahead, Cmdline.lookahead, (h1 args hA).1]
    cases hq : p args with
    | error f => rfl
    | ok r =>
      simp only
      rw [ih r.2 ((h1 args hA).2 r.1 r.2 hq).2]

theorem lookahead_blank (c : Cmdline) (hs : c.styleParser = none) (ha : c.additional = none) : Cmdline.lookahead c.parsers [[]] = .ok [] := by
  unfold Cmdline.parsers
  rw [hs, ha]
  cases active c.style Style.allowLong <;> cases active c.style Style.allowLongDisguise <;>
    cases active c.style Style.allowShort <;> cases active c.style Style.allowDashForShort <;>
    cases active c.style Style.allowSlashForShort <;> rfl

theorem grab (h : Agrees c D A K) {ps' ps : List StyleParser} (hp : Twins A K ps' ps) (hb : [] ∈ A → Cmdline.lookahead ps [[]] = .ok [] ∨ K [])
    (n : Nat) (other : List Str) (hA : ∀ a ∈ other, a ∈ A) (opt : Opt) (orig : Str) :
    ({ c with desc := D } : Cmdline).grab ps' n other opt orig = c.grab ps n other opt orig ∧
      ∀ o rest, c.grab ps n other opt orig = .ok (o, rest) → o.stringKey = opt.stringKey ∧ ∀ a ∈ rest, a ∈ A := by
  induction n generalizing other opt orig with
  | zero =>
    rw [Cmdline.grab, Cmdline.grab]
    exact ⟨rfl, fun o rest e => by cases e; exact ⟨rfl, hA⟩⟩
  | succ n ih =>
    cases other with
    | nil =>
      rw [Cmdline.grab, Cmdline.grab]
      exact ⟨rfl, fun o rest e => by cases e; exact ⟨rfl, hA⟩⟩
    | cons t ts =>
      rw [Cmdline.grab, Cmdline.grab, lookahead hp [t] (by intro a ha; exact hA a (by simp at ha; simp [ha]))]
      have hts : ∀ a ∈ ts, a ∈ A := fun a ha => hA a (by simp [ha])
      cases hl : Cmdline.lookahead ps [t] with
      | error f => exact ⟨rfl, nofun⟩
      | ok os =>
        cases os with
        | nil => exact ih ts hts _ _
        | cons o os =>
          have hK : K t := by
            have ht := hA t (by simp)
            by_cases h0 : t = []
            · subst h0
              rcases hb ht with e | hk
              · rw [e] at hl; cases hl
              · exact hk
            · exact h.token t ht h0
          simp only
          rw [h.look t hK]
          cases hf : c.lookup t with
          | error f => exact ⟨rfl, nofun⟩
          | ok d =>
            cases d with
            | some d => exact ⟨rfl, nofun⟩
            | none => exact ih ts hts _ _

theorem finishOption (h : Agrees c D A K) {ps' ps : List StyleParser} (hp : Twins A K ps' ps)
    (hb : [] ∈ A → Cmdline.lookahead ps [[]] = .ok [] ∨ K []) (opt : Opt) (hk : opt.stringKey ≠ [] → K opt.stringKey)
    (other : List Str) (hA : ∀ a ∈ other, a ∈ A) :
    ({ c with desc := D } : Cmdline).finishOption ps' opt other = c.finishOption ps opt other ∧
      ∀ o rest, c.finishOption ps opt other = .ok (o, rest) → (o.stringKey ≠ [] → K o.stringKey) ∧ ∀ a ∈ rest, a ∈ A := by
  unfold Cmdline.finishOption
  by_cases h0 : opt.stringKey = []
  · rw [if_pos h0, if_pos h0]
    exact ⟨rfl, fun o rest e => by cases e; exact ⟨hk, hA⟩⟩
  · rw [if_neg h0, if_neg h0]
    dsimp only
    rw [h.look _ (hk h0)]
    cases hf : c.lookup opt.stringKey with
    | error f => exact ⟨rfl, nofun⟩
    | ok d =>
      cases d with
      | none =>
        dsimp only
        split
        · exact ⟨rfl, fun o rest e => by cases e; exact ⟨hk, hA⟩⟩
        · exact ⟨rfl, nofun⟩
      | some d =>
        dsimp only
        split
        · split
          · exact ⟨rfl, nofun⟩
          · obtain ⟨h1, h2⟩ := h.grab hp hb (d.semantic.minTokens - opt.value.length) other hA
              { opt with stringKey := d.key opt.stringKey } (origFor opt)
            refine ⟨h1, fun o rest e => ?_⟩
            obtain ⟨h3, h4⟩ := h2 o rest e
            refine ⟨fun _ => ?_, h4⟩
            rw [h3]
            exact h.key _ d (hk h0) hf
        · exact ⟨rfl, nofun⟩

theorem finishAll (h : Agrees c D A K) {ps' ps : List StyleParser} (hp : Twins A K ps' ps)
    (hb : [] ∈ A → Cmdline.lookahead ps [[]] = .ok [] ∨ K []) (os : List Opt) (hk : KeysIn K os)
    (args : List Str) (hA : ∀ a ∈ args, a ∈ A) :
    ({ c with desc := D } : Cmdline).finishAll ps' os args = c.finishAll ps os args ∧
      ∀ os' rest, c.finishAll ps os args = .ok (os', rest) → KeysIn K os' ∧ ∀ a ∈ rest, a ∈ A := by
  induction os with
  | nil =>
    rw [Cmdline.finishAll, Cmdline.finishAll]
    exact ⟨rfl, fun o rest e => by cases e; exact ⟨hk, hA⟩⟩
  | cons o os ih =>
    cases os with
    | nil =>
      rw [Cmdline.finishAll, Cmdline.finishAll]
      obtain ⟨h1, h2⟩ := h.finishOption hp hb o (hk o (by simp)) args hA
      rw [h1]
      refine ⟨rfl, fun os' rest e => ?_⟩
      cases hf : c.finishOption ps o args with
      | error f => rw [hf] at e; cases e
      | ok r =>
        rw [hf] at e
        cases e
        obtain ⟨h3, h4⟩ := h2 _ _ hf
        refine ⟨?_, h4⟩
        intro o' ho'
        rw [List.mem_singleton] at ho'
        subst ho'
        exact h3
    | cons o2 os =>
      rw [finishAll.eq_3 _ _ args o (o2 :: os) (by simp), finishAll.eq_3 c _ args o (o2 :: os) (by simp)]
      obtain ⟨h1, h2⟩ := h.finishOption hp hb o (hk o (by simp)) [] nofun
      obtain ⟨h3, h4⟩ := ih (fun o' ho' => hk o' (List.mem_cons_of_mem _ ho'))
      rw [h1, h3]
      refine ⟨rfl, fun os' rest e => ?_⟩
      cases hf : c.finishOption ps o [] with
      | error f => rw [hf] at e; cases e
      | ok r =>
        rw [hf] at e
        simp only at e
        cases hg : c.finishAll ps (o2 :: os) args with
        | error f => rw [hg] at e; cases e
        | ok r' =>
          rw [hg] at e
          cases e
          refine ⟨?_, (h4 _ _ hg).2⟩
          intro o' ho'
          rcases List.mem_cons.1 ho' with rfl | ho'
          · exact (h2 _ _ hf).1
          · exact (h4 _ _ hg).1 o' ho'

theorem tryParsers (h : Agrees c D A K) {all' all : List StyleParser} (ha : Twins A K all' all)
    (hb : [] ∈ A → Cmdline.lookahead all [[]] = .ok [] ∨ K []) {ps' ps : List StyleParser} (hp : Twins A K ps' ps)
    (args : List Str) (hA : ∀ a ∈ args, a ∈ A) :
    ({ c with desc := D } : Cmdline).tryParsers all' ps' args = c.tryParsers all ps args ∧
      ∀ os rest, c.tryParsers all ps args = .ok (os, rest) → KeysIn K os ∧ ∀ a ∈ rest, a ∈ A := by
  induction hp generalizing args with
  | nil =>
    cases args with
    | nil =>
      rw [Cmdline.tryParsers, Cmdline.tryParsers]
      exact ⟨rfl, nofun⟩
    | cons a args =>
      rw [Cmdline.tryParsers, Cmdline.tryParsers]
      refine ⟨rfl, fun os rest e => ?_⟩
      cases e
      refine ⟨?_, fun a ha => hA a (by simp [ha])⟩
      intro o ho hk
      rw [List.mem_singleton] at ho
      subst ho
      exact absurd rfl hk
  | @cons p' p ps' ps h1 _ ih =>
    rw [Cmdline.tryParsers, Cmdline.tryParsers, (h1 args hA).1]
    cases hq : p args with
    | error f => exact ⟨rfl, nofun⟩
    | ok r =>
      obtain ⟨next, args1⟩ := r
      obtain ⟨h2, h3⟩ := (h1 args hA).2 _ _ hq
      obtain ⟨h4, h5⟩ := h.finishAll ha hb next h2 args1 h3
      simp only
      rw [h4]
      cases hf : c.finishAll all next args1 with
      | error f => exact ⟨rfl, nofun⟩
      | ok r =>
        obtain ⟨next', args2⟩ := r
        obtain ⟨h6, h7⟩ := h5 _ _ hf
        obtain ⟨h8, h9⟩ := ih args2 h7
        simp only
        rw [h8]
        refine ⟨rfl, fun os rest e => ?_⟩
        split at e
        · cases e
          exact ⟨h6, h7⟩
        · cases hg : c.tryParsers all ps args2 with
          | error f => rw [hg] at e; cases e
          | ok r =>
            rw [hg] at e
            cases e
            obtain ⟨h10, h11⟩ := h9 _ _ hg
            refine ⟨?_, h11⟩
            intro o ho
            rcases List.mem_append.1 ho with ho | ho
            · exact h6 o ho
            · exact h10 o ho

theorem loop (h : Agrees c D A K) (fuel : Nat) (args : List Str) (hA : ∀ a ∈ args, a ∈ A) :
    ({ c with desc := D } : Cmdline).loop fuel args = c.loop fuel args ∧ ∀ os, c.loop fuel args = .ok os → KeysIn K os := by
  induction fuel generalizing args with
  | zero =>
    cases args <;> rw [Cmdline.loop, Cmdline.loop]
    · exact ⟨rfl, fun os e => by cases e; exact nofun⟩
    · exact ⟨rfl, nofun⟩
  | succ fuel ih =>
    cases args with
    | nil =>
      rw [Cmdline.loop, Cmdline.loop]
      exact ⟨rfl, fun os e => by cases e; exact nofun⟩
    | cons a args =>
      have hb : [] ∈ A → Cmdline.lookahead c.parsers [[]] = .ok [] ∨ K [] := by
        intro h0
        rcases h.blank h0 with e | hk
        · exact .inl (lookahead_blank c h.noStyle e)
        · exact .inr hk
      obtain ⟨h1, h2⟩ := h.tryParsers h.parsers hb h.parsers (a :: args) hA
      rw [Cmdline.loop, Cmdline.loop]
      have h1' : ({ c with desc := D } : Cmdline).step (a :: args) = c.step (a :: args) := h1
      rw [h1']
      cases hs : c.step (a :: args) with
      | error f => exact ⟨rfl, nofun⟩
      | ok r =>
        obtain ⟨h3, h4⟩ := h2 r.1 r.2 hs
        obtain ⟨h5, h6⟩ := ih r.2 h4
        simp only
        rw [h5]
        refine ⟨rfl, fun os e => ?_⟩
        cases hl : c.loop fuel r.2 with
        | error f => rw [hl] at e; cases e
        | ok more =>
          rw [hl] at e
          cases e
          intro o ho
          rcases List.mem_append.1 ho with ho | ho
          · exact h3 o ho
          · exact h6 _ hl o ho

theorem regroup (h : Agrees c D A K) (k : Nat) (os : List Opt) (hk : KeysIn K os) :
    ({ c with desc := D } : Cmdline).regroup k os = c.regroup k os := by
  induction os generalizing k with
  | nil => rw [Cmdline.regroup, Cmdline.regroup]
  | cons o os ih =>
    have ih' : ∀ k, ({ c with desc := D } : Cmdline).regroup k os = c.regroup k os := fun k =>
      ih k (fun o ho => hk o (List.mem_cons_of_mem _ ho))
    cases k with
    | succ k => rw [Cmdline.regroup, Cmdline.regroup, ih']
    | zero =>
      rw [Cmdline.regroup, Cmdline.regroup]
      simp only [ih']
      by_cases h0 : o.stringKey = []
      · rw [if_pos h0, if_pos h0]
      · rw [if_neg h0, if_neg h0, h.look _ (hk o (by simp) h0)]
        rfl

theorem run (h : Agrees c D A K) (args : List Str) (hA : ∀ a ∈ args, a ∈ A) : ({ c with desc := D } : Cmdline).run args = c.run args := by
  unfold Cmdline.run runFuel
  obtain ⟨h1, h2⟩ := h.loop (args.length + 1) args hA
  rw [h1]
  cases hl : c.loop (args.length + 1) args with
  | error f => rfl
  | ok os =>
    simp only
    unfold Cmdline.finalize
    rw [h.regroup 0 os (h2 os hl)]
    rfl

end Agrees
end Cmdline
end PO
