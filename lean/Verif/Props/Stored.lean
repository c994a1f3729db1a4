import Verif.Spec.Stored
import Verif.Props.Values
import Verif.Props.StoreGrammar
import Verif.Model.Convert
/-
C87: the value stored for a name, from the texts of its occurrences, also from wide sources.
-/
namespace PO
open Spec

theorem parseAll_gets (env : Env) (t : TypedValue) (utf8 : Bool) (tokss : List (List Str)) : ∀ (prev r : Any),
    parseAll (t.toSemantic env) utf8 prev tokss = .ok r ↔ ∃ texts, AllArrive env t.wide utf8 tokss texts ∧ Gets env t prev texts r := by
  induction tokss with
  | nil =>
    intro prev r
    constructor
    · intro h; cases h; exact ⟨[], .nil, .done _⟩
    · rintro ⟨_, h1, h2⟩; cases h1; cases h2; rfl
  | cons toks rest ih =>
    intro prev r
    rw [parseAll]
    cases hp : (t.toSemantic env).parse prev toks utf8 with
    | mk a f =>
    cases f with
    | some f =>
      constructor
      · intro h; cases h
      · rintro ⟨_, h1, h2⟩
        cases h1 with
        | cons x1 x2 =>
        cases h2 with
        | more _ _ _ b _ y1 y2 =>
        rw [(C82_value env t prev toks utf8 b).2 ⟨_, x1, y1⟩] at hp
        cases hp
    | none =>
      dsimp only
      rw [ih]
      constructor
      · rintro ⟨texts, h1, h2⟩
        obtain ⟨xs, b, h3, h4, rfl⟩ := ((parse_iff env t prev toks utf8).1 _).1 hp
        exact ⟨xs :: texts, .cons h3 h1, .more _ _ _ b _ h4 h2⟩
      · rintro ⟨_, h1, h2⟩
        cases h1 with
        | cons x1 x2 =>
        cases h2 with
        | more _ _ _ b _ y1 y2 =>
        rw [(C82_value env t prev toks utf8 b).2 ⟨_, x1, y1⟩] at hp
        cases hp
        exact ⟨_, x2, y2⟩

/-- **C87.** If all declared options have types, a source is stored without exception exactly if every name in it that is not final yet
stands for one option, all texts of its occurrences arrive, and the option gets a value from them. -/
theorem C87_succeeds (env : Env) (p : Parsed) (xm : VarMap) (utf8 : Bool) (ht : ∀ d ∈ p.desc, ∃ t : TypedValue, d.semantic = t.toSemantic env) :
    (store p xm utf8).2 = none ↔ ∀ name, Mentions p.options name → name ∉ xm.final → ∃ d t texts r,
      candidates p.desc name = [d] ∧ d.semantic = TypedValue.toSemantic env t ∧
      AllArrive env t.wide utf8 ((occurrences p.options name).map (·.value)) texts ∧ Gets env t (given xm name) texts r := by
  rw [C65_succeeds]
  refine forall_congr' fun name => imp_congr_right fun _ => imp_congr_right fun _ => ?_
  constructor
  · rintro ⟨d, a, h1, h2⟩
    have hd : d ∈ p.desc := by
      have : d ∈ candidates p.desc name := by rw [h1]; exact List.mem_singleton.2 rfl
      unfold candidates exacts approximates at this
      split at this <;> exact (List.mem_filter.1 this).1
    obtain ⟨t, h⟩ := ht d hd
    rw [h] at h2
    obtain ⟨texts, h3, h4⟩ := (parseAll_gets env t utf8 _ _ _).1 h2
    exact ⟨d, t, texts, a, h1, h, h3, h4⟩
  · rintro ⟨d, t, texts, r, h1, h2, h3, h4⟩
    exact ⟨d, r, h1, by rw [h2]; exact (parseAll_gets env t utf8 _ _ _).2 ⟨texts, h3, h4⟩⟩

/-- The value stored is the one the option gets from these texts. -/
theorem C87_stored (env : Env) (p : Parsed) (xm m : VarMap) (utf8 : Bool) (h : store p xm utf8 = (m, none)) (name : Str)
    (hm : Mentions p.options name) (hf : name ∉ xm.final) (d : OptionDesc) (hd : candidates p.desc name = [d]) (t : TypedValue)
    (ht : d.semantic = t.toSemantic env) :
    ∃ texts r, AllArrive env t.wide utf8 ((occurrences p.options name).map (·.value)) texts ∧ Gets env t (given xm name) texts r ∧
      m.map.get? name = some { v := r, defaulted := false, semantic := some d.semantic } := by
  obtain ⟨d', a, ⟨h1, h2⟩, h3, -⟩ := (C65_result p xm m utf8 h name).1 hm hf
  rw [hd] at h1; cases h1
  rw [ht] at h2
  obtain ⟨texts, h4, h5⟩ := (parseAll_gets env t utf8 _ _ _).1 h2
  exact ⟨texts, a, h4, h5, h3⟩

/-! ### Wide sources -/

theorem mapM_forall₂ {α β : Type} (f : α → Option β) (xs : List α) : ∀ ys, xs.mapM f = some ys ↔ List.Forall₂ (fun x y => f x = some y) xs ys := by
  induction xs with
  | nil =>
    intro ys
    rw [List.mapM_nil]
    constructor
    · intro h; cases h; exact .nil
    · intro h; cases h; rfl
  | cons x xs ih =>
    intro ys
    rw [List.mapM_cons]
    constructor
    · intro h
      cases hx : f x with
      | none => rw [hx] at h; cases h
      | some y =>
        cases hr : xs.mapM f with
        | none => rw [hx, hr] at h; cases h
        | some zs =>
          rw [hx, hr] at h; cases h
          exact .cons hx ((ih zs).1 hr)
    · intro h
      cases h with
      | cons h1 h2 => rw [h1, (ih _).2 h2]; rfl

theorem mapOk_forall₂ {α β : Type} (f : α → Except Fail β) (xs : List α) : ∀ ys, mapOk f xs = .ok ys ↔ List.Forall₂ (fun x y => f x = .ok y) xs ys := by
  induction xs with
  | nil =>
    intro ys
    constructor
    · intro h; cases h; exact .nil
    · intro h; cases h; rfl
  | cons x xs ih =>
    intro ys
    rw [mapOk]
    constructor
    · intro h
      cases hx : f x with
      | error e => rw [hx] at h; cases h
      | ok y =>
        cases hr : mapOk f xs with
        | error e => rw [hx, hr] at h; cases h
        | ok zs =>
          rw [hx, hr] at h; cases h
          exact .cons hx ((ih zs).1 hr)
    · intro h
      cases h with
      | cons h1 h2 => rw [h1, (ih _).2 h2]

theorem wopt_fields {env : Env} {o : Opt} {wo : WOpt} (h : wopt env o = .ok wo) :
    wo.stringKey = o.stringKey ∧ wo.unregistered = o.unregistered ∧ List.Forall₂ (fun x y => env.fromUtf8 x = some y) o.value wo.value := by
  unfold wopt at h
  split at h
  · rename_i h1 h2; cases h; exact ⟨rfl, rfl, (mapM_forall₂ _ _ _).1 h1⟩
  · cases h

theorem occurrences_wide {env : Env} {os : List Opt} {wos : List WOpt} (h : List.Forall₂ (fun o wo => wopt env o = .ok wo) os wos) (name : Str) :
    List.Forall₂ (List.Forall₂ (fun x y => env.fromUtf8 x = some y)) ((occurrences os name).map (·.value)) ((woccurrences wos name).map (·.value)) := by
  induction h with
  | nil => exact .nil
  | @cons o wo os wos h1 h2 ih =>
    obtain ⟨e1, e2, e3⟩ := wopt_fields h1
    unfold occurrences woccurrences at ih ⊢
    rw [List.filter_cons, List.filter_cons, e1, e2]
    split
    · exact .cons e3 ih
    · exact ih

theorem arrives_wide {env : Env} {wide : Bool} {tok : Str} {w : WStr} (h : env.fromUtf8 tok = some w) (x : Word) :
    Arrives env wide true tok x ↔ WArrives env wide w x := by
  constructor
  · intro hx
    cases hx with
    | recoded _ s w' h1 h2 => rw [h] at h1; cases h1; exact .narrowed _ _ h2
    | decoded _ w' h1 => rw [h] at h1; cases h1; exact .same _
  · intro hx
    cases hx with
    | same => exact .decoded _ _ h
    | narrowed _ s hs => exact .recoded _ _ _ h hs

theorem forall₂_replace {α β γ : Type} {r : α → β → Prop} {p : α → γ → Prop} {q : β → γ → Prop} (hpq : ∀ a b c, r a b → (p a c ↔ q b c))
    {xs : List α} {ys : List β} (h : List.Forall₂ r xs ys) : ∀ zs, List.Forall₂ p xs zs ↔ List.Forall₂ q ys zs := by
  induction h with
  | nil => intro zs; constructor <;> (intro h; cases h; exact .nil)
  | cons h1 h2 ih =>
    intro zs
    constructor
    · intro h; cases h with | cons a b => exact .cons ((hpq _ _ _ h1).1 a) ((ih _).1 b)
    · intro h; cases h with | cons a b => exact .cons ((hpq _ _ _ h1).2 a) ((ih _).2 b)

theorem allArrive_wide {env : Env} {p : Parsed} {wp : WParsed} (h : p.toWide env = .ok wp) (wide : Bool) (name : Str) (texts : List (List Word)) :
    wp.utf8 = p ∧ (AllArrive env wide true ((occurrences p.options name).map (·.value)) texts ↔
      List.Forall₂ (List.Forall₂ (WArrives env wide)) ((woccurrences wp.options name).map (·.value)) texts) := by
  unfold Parsed.toWide at h
  split at h
  · cases h
  · rename_i os e
    cases h
    refine ⟨rfl, ?_⟩
    have := occurrences_wide ((mapOk_forall₂ _ _ _).1 e) name
    exact forall₂_replace (r := List.Forall₂ fun x y => env.fromUtf8 x = some y)
      (fun a b c hab => forall₂_replace (r := fun x y => env.fromUtf8 x = some y) (fun x y z hxy => arrives_wide hxy z) hab c) this texts

theorem mentions_wide {env : Env} {p : Parsed} {wp : WParsed} (h : p.toWide env = .ok wp) (name : Str) :
    woccurrences wp.options name ≠ [] ↔ Mentions p.options name := by
  unfold Parsed.toWide at h
  split at h
  · cases h
  · rename_i os e
    cases h
    have := (occurrences_wide ((mapOk_forall₂ _ _ _).1 e) name).length_eq
    simp only [List.length_map] at this
    rw [mentions_iff, ← List.length_pos_iff, ← List.length_pos_iff, this]

theorem wparse_wide {c : Cmdline} {env : Env} {args : List WStr} {wp : WParsed} (h : c.wparse env args = .ok wp) :
    ∃ p : Parsed, p.toWide env = .ok wp := by
  unfold Cmdline.wparse at h
  split at h
  · cases h
  · split at h
    · cases h
    · exact ⟨_, h⟩

theorem wparseConfigFile_wide {env : Env} {text : WStr} {desc : List OptionDesc} {allow : Bool} {wp : WParsed}
    (h : wparseConfigFile env text desc allow = .ok wp) : ∃ p : Parsed, p.toWide env = .ok wp := by
  unfold wparseConfigFile at h
  repeat' split at h
  all_goals first | cases h | exact ⟨_, h⟩

/-- **C87, wide sources.** What is stored for a name of a wide command line or configuration file comes from the wide texts in its options:
a `wvalue` gets these texts unchanged, a `value` gets them in the local character set. -/
theorem C87_wide (env : Env) (wp : WParsed)
    (hs : (∃ c args, Cmdline.wparse c env args = .ok wp) ∨ ∃ text desc allow, wparseConfigFile env text desc allow = .ok wp)
    (xm m : VarMap) (h : wstore wp xm = (m, none)) (name : Str) (hm : woccurrences wp.options name ≠ []) (hf : name ∉ xm.final) (d : OptionDesc)
    (hd : candidates wp.desc name = [d]) (t : TypedValue) (ht : d.semantic = t.toSemantic env) :
    ∃ texts r, List.Forall₂ (List.Forall₂ (WArrives env t.wide)) ((woccurrences wp.options name).map (·.value)) texts ∧
      Gets env t (given xm name) texts r ∧ m.map.get? name = some { v := r, defaulted := false, semantic := some d.semantic } := by
  have hw : ∃ p, Parsed.toWide env p = .ok wp := by
    rcases hs with ⟨c, args, h⟩ | ⟨text, desc, allow, h⟩
    · exact wparse_wide h
    · exact wparseConfigFile_wide h
  obtain ⟨p, hp⟩ := hw
  have hpd : wp.desc = p.desc := by
    unfold Parsed.toWide at hp
    split at hp <;> cases hp
    rfl
  have hu := (allArrive_wide hp t.wide name []).1
  unfold wstore at h
  rw [hu] at h
  rw [hpd] at hd
  obtain ⟨texts, r, h1, h2, h3⟩ := C87_stored env p xm m true h name ((mentions_wide hp name).1 hm) hf d hd t ht
  exact ⟨texts, r, (allArrive_wide hp t.wide name texts).2.1 h1, h2, h3⟩

/-- In particular a wide string option has exactly the wide text that was given. -/
theorem C87_wide_string (env : Env) (wp : WParsed)
    (hs : (∃ c args, Cmdline.wparse c env args = .ok wp) ∨ ∃ text desc allow, wparseConfigFile env text desc allow = .ok wp)
    (m : VarMap) (h : wstore wp {} = (m, none)) (name : Str) (d : OptionDesc) (hd : candidates wp.desc name = [d]) (t : TypedValue)
    (ht : d.semantic = t.toSemantic env) (hwide : t.wide = true) (hty : t.type = .scalar .wstr)
    (hi : t.implicit = none) (wo : WOpt) (w : WStr)
    (ho : wo ∈ woccurrences wp.options name) (hv : wo.value = [w]) :
    (m.map.get? name).bind (·.v) = some (.scalar (.wstr w)) := by
  obtain ⟨texts, r, h1, h2, h3⟩ := C87_wide env wp hs {} m h name (List.ne_nil_of_mem ho) (by simp) d hd t ht
  rw [hwide] at h1
  rw [h3]
  have hg : given {} name = none := rfl
  rw [hg] at h2
  cases hocc : woccurrences wp.options name with
  | nil => rw [hocc] at ho; cases ho
  | cons a as =>
  rw [hocc] at h1
  cases h1 with
  | @cons _ xs _ rest x1 x2 =>
  cases h2 with
  | more _ _ _ b _ y1 y2 =>
  have hb : ∀ xs b c, ¬ Takes env t (some b) xs c := by
    intro xs b c hx
    cases hx with
    | implicit _ s h => rw [hi] at h; cases h
    | scalar _ _ _ _ hp => cases hp
    | present _ hp => cases hp
    | vector _ _ _ _ h => rw [hty] at h; cases h
    | optional _ _ _ h => rw [hty] at h; cases h
  cases y2 with
  | more _ _ _ c _ z1 z2 => exact absurd z1 (hb _ _ _)
  | done =>
  cases as with
  | cons a' as' => cases x2
  | nil =>
  rw [hocc] at ho
  cases List.mem_singleton.1 ho
  dsimp only at x1
  rw [hv] at x1
  cases x1 with
  | cons k1 k2 =>
  cases k2
  cases k1
  cases y1 with
  | scalar st _ v h hp hc =>
    rw [hty] at h; cases h
    cases hc
    rfl
  | vector _ _ _ _ h => rw [hty] at h; cases h
  | optional _ _ _ h => rw [hty] at h; cases h


/-- A wide command line `--name=é€` and its wide string option. -/
example :
    let env := Test.env.withUtf8
    let t : TypedValue := { type := .scalar .wstr, wide := true }
    let c : Cmdline := { desc := [Test.od "name" (t.toSemantic env) ""] }
    ∃ wp, c.wparse env [Test.L "--name=" |>.map Char.toNat |> (· ++ [0xe9, 0x20ac])] = .ok wp ∧
      (wstore wp {}).2 = none ∧ (((wstore wp {}).1.map.get? (Test.L "name")).bind (·.v)) = some (.scalar (.wstr [0xe9, 0x20ac])) :=
  ⟨_, rfl, rfl, rfl⟩

/-- Two occurrences of a vector option, by the rules. -/
example : Gets Test.env { type := .vector .str } none [[.narrow (Test.L "a")], [.narrow (Test.L "b"), .narrow (Test.L "c")]]
    (some (.vector .str [.str (Test.L "a"), .str (Test.L "b"), .str (Test.L "c")])) :=
  .more _ _ _ _ _ (.vector .str _ [] [.str (Test.L "a")] rfl .none nofun (.cons ⟨.string _, rfl⟩ .nil))
    (.more _ _ _ _ _ (.vector .str _ [.str (Test.L "a")] [.str (Test.L "b"), .str (Test.L "c")] rfl (.some _) nofun
      (.cons ⟨.string _, rfl⟩ (.cons ⟨.string _, rfl⟩ .nil))) (.done _))

end PO
