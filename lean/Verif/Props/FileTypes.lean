import Verif.Spec.FileTypes
import Verif.Props.SharedFile
import Verif.Props.FileParts
import Verif.Props.OnceOnly
/-
C157: what example/config_file_types.cpp checks.
-/
namespace PO
open Spec

namespace FileTypes

def typed : Kind → TypedValue
  | .text => Hierarchy.string
  | .number ty => number ty
  | .switch => boolSwitch

def scalarType : Kind → SType
  | .text => .str
  | .number ty => .lex ty
  | .switch => .bool

def wants : Kind → Wants
  | .text => .one .str
  | .number ty => .one (.lex ty)
  | .switch => .flag

def option (env : Env) (q : Str × Kind) : OptionDesc :=
  { shortName := [], longNames := [q.1], description := [], semantic := (typed q.2).toSemantic env }

set_option maxRecDepth 8000 in
theorem names_lines : ∀ n ∈ declared.map (·.1), getlines ',' n = [n] := by decide

theorem opt_eq {n : Str} (h : getlines ',' n = [n]) (s : ValueSemantic) :
    Hierarchy.opt n s = [{ shortName := [], longNames := [n], description := [], semantic := s }] := by
  unfold Hierarchy.opt OptionDesc.make OptionDesc.setNames
  rw [h]
  rfl

theorem desc_opts (env : Env) : setOptions env = declared.flatMap fun q => Hierarchy.opt q.1 ((typed q.2).toSemantic env) := by
  show List.flatMap _ (declared.map fun q => (q.1, typed q.2)) = _
  rw [List.flatMap_map]

theorem desc_eq (env : Env) : setOptions env = declared.map (option env) := by
  rw [desc_opts]
  have : ∀ l : List (Str × Kind), (∀ n ∈ l.map (·.1), getlines ',' n = [n]) →
      (l.flatMap fun q => Hierarchy.opt q.1 ((typed q.2).toSemantic env)) = l.map (option env) := by
    intro l
    induction l with
    | nil => intro _; rfl
    | cons q l ih =>
      intro h
      rw [List.flatMap_cons, ih fun n hn => h n (by rw [List.map_cons]; exact List.mem_cons_of_mem _ hn), opt_eq (h q.1 (by simp))]
      rfl
  exact this _ names_lines

theorem typed_type (k : Kind) : (typed k).type = .scalar (scalarType k) := by cases k <;> rfl
theorem typed_wide (k : Kind) : (typed k).wide = false := by cases k <;> rfl

theorem names_nodup : (declared.map (·.1)).Nodup := by decide

theorem names_ok : ∀ n ∈ declared.map (·.1), n ≠ [] ∧ '*' ∉ n := by decide

theorem option_own (env : Env) {q : Str × Kind} (hq : q ∈ declared) : (option env q).own = q.1 := by
  have := (names_ok _ (List.mem_map_of_mem (f := (·.1)) hq)).2
  show (if '*' ∈ q.1 then [] else q.1) = q.1
  rw [if_neg this]

theorem noClash (env : Env) : NoClash (setOptions env) := by
  apply noClash_of_nodup
  rw [desc_eq]
  have : ∀ l : List (Str × Kind), (∀ n ∈ l.map (·.1), n ≠ [] ∧ '*' ∉ n) → (l.map (option env)).flatMap ownNames = l.map (·.1) := by
    intro l
    induction l with
    | nil => intro _; rfl
    | cons q l ih =>
      intro h
      rw [List.map_cons, List.flatMap_cons, ih fun n hn => h n (by rw [List.map_cons]; exact List.mem_cons_of_mem _ hn)]
      have := (h q.1 (by simp)).1
      simp [ownNames, option, this]
  rw [this _ names_ok]
  exact names_nodup

theorem inj_of_nodup (l : List (Str × Kind)) (h : (l.map (·.1)).Nodup) : ∀ a ∈ l, ∀ b ∈ l, a.1 = b.1 → a = b := by
  induction l with
  | nil => simp
  | cons q l ih =>
    rw [List.map_cons, List.nodup_cons] at h
    intro a ha b hb e
    rcases List.mem_cons.1 ha with rfl | ha' <;> rcases List.mem_cons.1 hb with rfl | hb'
    · rfl
    · rw [e] at h
      exact absurd (List.mem_map_of_mem hb') h.1
    · rw [← e] at h
      exact absurd (List.mem_map_of_mem ha') h.1
    · exact ih h.2 a ha' b hb' e

theorem own (env : Env) : OwnOptions env (setOptions env) := by
  refine ⟨fun d hd => ?_, fun d hd => ?_, fun d hd d' hd' h => ?_⟩
  · rw [desc_eq] at hd
    obtain ⟨q, -, rfl⟩ := List.mem_map.1 hd
    refine .typed _ ?_ (typed_wide _)
    obtain ⟨n, k⟩ := q
    cases k
    · exact ⟨(by rintro _ ⟨⟩), by rintro _ ⟨⟩⟩
    · exact ⟨(by rintro _ ⟨⟩), by rintro _ ⟨⟩⟩
    · exact ⟨(by rintro q h; cases h; rfl), by rintro _ ⟨⟩⟩
  · rw [desc_eq] at hd
    obtain ⟨q, hq, rfl⟩ := List.mem_map.1 hd
    rw [option_own env hq]
    exact (names_ok _ (List.mem_map_of_mem hq)).1
  · rw [desc_eq] at hd hd'
    obtain ⟨q, hq, rfl⟩ := List.mem_map.1 hd
    obtain ⟨q', hq', rfl⟩ := List.mem_map.1 hd'
    rw [option_own env hq, option_own env hq'] at h
    rw [inj_of_nodup _ names_nodup q' hq' q hq h]

theorem option_mem (env : Env) {q : Str × Kind} (hq : q ∈ declared) : option env q ∈ setOptions env := by
  rw [desc_eq]
  exact List.mem_map_of_mem hq

theorem declarable (env : Env) : Declarable (setOptions env) := by
  refine ⟨fun d hd => ?_, ?_⟩
  · rw [desc_eq] at hd
    obtain ⟨q, hq, rfl⟩ := List.mem_map.1 hd
    exact (names_ok _ (List.mem_map_of_mem hq)).1
  rintro ⟨d, hd, -, -, s, -, h, -⟩
  rw [desc_eq] at hd
  obtain ⟨q, hq, rfl⟩ := List.mem_map.1 hd
  have h : q.1 = s ++ ['*'] := h
  refine (names_ok _ (List.mem_map_of_mem hq)).2 ?_
  rw [h]
  simp

theorem accepts_iff (env : Env) (n : Str) : Accepts (setOptions env) n ↔ n ∈ declared.map (·.1) := by
  constructor
  · rintro ⟨d, hd, h | ⟨s, h, -⟩⟩
    · rw [desc_eq] at hd
      obtain ⟨q, hq, rfl⟩ := List.mem_map.1 hd
      rw [← h.1]
      exact List.mem_map_of_mem hq
    · rw [desc_eq] at hd
      obtain ⟨q, hq, rfl⟩ := List.mem_map.1 hd
      have h : q.1 = s ++ ['*'] := h
      exact absurd (by rw [h]; simp) (names_ok _ (List.mem_map_of_mem hq)).2
  · intro hn
    have hs := (names_ok n hn).2
    obtain ⟨q, hq, rfl⟩ := List.mem_map.1 hn
    refine ⟨_, option_mem env hq, .inl ⟨rfl, fun h => hs (List.mem_of_getLast? h)⟩⟩

theorem marked_tokens {env : Env} {es : List (Str × Str)} {os : List Opt} (h : Marked (setOptions env) es os) {n : Str} (hn : n ∈ declared.map (·.1)) :
    tokensOf os n = (given es n).map fun t => [t] := by
  have h0 := (names_ok n hn).1
  unfold tokensOf occurrences given
  induction h with
  | nil => rfl
  | @known n' v es os ha _ ih =>
    by_cases e : n' = n
    · subst e
      simp only [List.filter_cons, itemOption, h0, ne_eq, not_false_eq_true, and_self, decide_true, if_true, List.map_cons]
      rw [← ih]
      simp [h0]
    · simp only [List.filter_cons, itemOption, e, false_and, decide_false, Bool.false_eq_true, if_false]
      exact ih
  | @unknown n' v es os ha _ ih =>
    have e : n' ≠ n := by
      rintro rfl
      exact ha ((accepts_iff env n').2 hn)
    simp only [List.filter_cons, itemOption, e, false_and, decide_false, Bool.false_eq_true, if_false]
    exact ih

theorem passed_others {env : Env} (es : List (Str × Str)) : PassedOn (setOptions env) es (others es) := by
  unfold others
  induction es with
  | nil => exact .nil
  | cons e es ih =>
    obtain ⟨n, v⟩ := e
    by_cases hn : n ∈ declared.map (·.1)
    · rw [List.filter_cons_of_neg (by simpa using hn)]
      exact .known ((accepts_iff env n).2 hn) ih
    · rw [List.filter_cons_of_pos (by simpa using hn)]
      exact .unknown (fun h => hn ((accepts_iff env n).1 h)) ih

theorem gets_once {env : Env} {t : TypedValue} {st : SType} (ht : t.type = .scalar st) (ts : List Str) (r : Any) :
    Gets env t none ((ts.map fun x => [x]).map (·.map Word.narrow)) r ↔
      (ts = [] ∧ r = none) ∨ ∃ x v, ts = [x] ∧ Converts env st (.narrow x) v ∧ r = some (.scalar v) := by
  have takes : ∀ prev x a, Takes env t prev [Word.narrow x] a ↔ prev = none ∧ ∃ v, Converts env st (.narrow x) v ∧ a = .scalar v := by
    intro prev x a
    constructor
    · intro h
      cases h with
      | scalar st' _ v h hp hc => rw [ht] at h; cases h; exact ⟨hp, v, hc, rfl⟩
      | vector st' _ vs ws h => rw [ht] at h; cases h
      | optional st' _ v h => rw [ht] at h; cases h
    · rintro ⟨rfl, v, hc, rfl⟩
      exact .scalar st _ v ht rfl hc
  constructor
  · intro h
    cases ts with
    | nil => cases h; exact .inl ⟨rfl, rfl⟩
    | cons x xs =>
      simp only [List.map_cons, List.map_nil] at h
      cases h with
      | more _ _ _ a _ h1 h2 =>
        obtain ⟨-, v, hc, rfl⟩ := (takes _ _ _).1 h1
        cases xs with
        | nil => cases h2; exact .inr ⟨x, v, rfl, hc, rfl⟩
        | cons y ys =>
          simp only [List.map_cons, List.map_nil] at h2
          cases h2 with
          | more _ _ _ _ _ h3 _ => cases ((takes _ _ _).1 h3).1
  · rintro (⟨rfl, rfl⟩ | ⟨x, v, rfl, hc, rfl⟩)
    · exact .done _
    · exact .more _ _ _ _ _ ((takes _ _ _).2 ⟨rfl, v, hc, rfl⟩) (.done _)

theorem gains_once {env : Env} (k : Kind) (ts : List Str) (r : Any) (hp : PlainValue env ((typed k).toSemantic env)) :
    Gains env ((typed k).toSemantic env) (ts.map fun x => [x]) r ↔
      (ts = [] ∧ r = none) ∨ ∃ x v, ts = [x] ∧ Converts env (scalarType k) (.narrow x) v ∧ r = some (.scalar v) := by
  rw [← gains_iff hp, parseAll_gets_narrow (typed_wide k), gets_once (typed_type k)]

theorem converts_bool {env : Env} (x : Str) (v : SVal) : Converts env .bool (.narrow x) v ↔ (Yes x ∧ v = .bool true) ∨ (No x ∧ v = .bool false) := by
  constructor
  · intro h
    cases h with
    | yes _ w hw hx => exact .inl ⟨by rw [Yes, show x.map Char.toLower = w from hx]; exact hw, rfl⟩
    | no _ w hw hx => exact .inr ⟨by rw [No, show x.map Char.toLower = w from hx]; exact hw, rfl⟩
  · rintro (⟨h, rfl⟩ | ⟨h, rfl⟩)
    · exact .yes _ _ h rfl
    · exact .no _ _ h rfl

theorem legible_iff {env : Env} (k : Kind) (x : Str) : Legible env k x ↔ ∃ v, Converts env (scalarType k) (.narrow x) v := by
  cases k with
  | text => exact ⟨fun _ => ⟨_, .string x⟩, fun _ => trivial⟩
  | number ty =>
    constructor
    · rintro ⟨v, h⟩; exact ⟨_, .cast ty x v h⟩
    · rintro ⟨v, h⟩
      cases h with
      | cast _ _ v h => exact ⟨v, h⟩
  | switch =>
    constructor
    · rintro (h | h)
      · exact ⟨_, (converts_bool x _).2 (.inl ⟨h, rfl⟩)⟩
      · exact ⟨_, (converts_bool x _).2 (.inr ⟨h, rfl⟩)⟩
    · rintro ⟨v, h⟩
      rcases (converts_bool x _).1 h with ⟨h, -⟩ | ⟨h, -⟩
      · exact .inl h
      · exact .inr h

theorem not_composing (env : Env) (k : Kind) : ((typed k).toSemantic env).isComposing = false := by cases k <;> rfl

theorem heard_eq {env : Env} {es : List (Str × Str)} {os : List Opt} (h : Marked (setOptions env) es os) {q : Str × Kind} (hq : q ∈ declared) :
    heardOf [{ desc := setOptions env, options := os }] (option env q) = (given es q.1).map fun t => [t] := by
  have := marked_tokens h (List.mem_map_of_mem (f := (·.1)) hq)
  unfold heardOf heard
  rw [show (option env q).semantic.isComposing = false from not_composing env q.2]
  simp only [List.map_cons, List.map_nil, Bool.false_eq_true, if_false, heard]
  rw [option_own env hq, this]
  split
  · rename_i h0; exact h0.symm
  · rfl

/-- What the map has for an option of the program. -/
def Holds (env : Env) (m : VarMap) (es : List (Str × Str)) : Prop :=
  ∀ q ∈ declared, (∃ t v, given es q.1 = [t] ∧ Converts env (scalarType q.2) (.narrow t) v ∧ (m.get q.1).v = some (.scalar v)) ∨
    (given es q.1 = [] ∧ (m.get q.1).v = match q.2 with | .switch => some (.scalar (.bool false)) | _ => none)

theorem stores_one {m0 m : VarMap} {p : Parsed} (h : Stores m0 ([p].map fun p => (p, false)) m) : store p m0 = (m, none) := by
  cases h with
  | cons hst ht => cases ht; exact hst

theorem runs (env : Env) (text : Str) : 
    (∀ m u, parseFile env text = .ok (m, u) → ∃ es, FileEntries text es ∧ AllLegible env es ∧ Holds env m es ∧ u = others es) ∧
    ∀ es, FileEntries text es → AllLegible env es → ∃ m u, parseFile env text = .ok (m, u) := by
  have all : ∀ es os, Marked (setOptions env) es os →
      ((∃ m, Stores {} ([({ desc := setOptions env, options := os } : Parsed)].map fun p => (p, false)) m) ↔ AllLegible env es) := by
    intro es os hm
    by_cases hs : SourceOf (setOptions env) { desc := setOptions env, options := os }
    · rw [C121_stored env _ (own env) _ (by intro p hp; rw [List.mem_singleton.1 hp]; exact hs)]
      constructor
      · intro h q hq
        obtain ⟨r, hr⟩ := h _ (option_mem env hq)
        rw [heard_eq hm hq] at hr
        rcases (gains_once q.2 _ r ((own env).plain _ (option_mem env hq))).1 hr with ⟨h0, -⟩ | ⟨x, v, h0, hc, -⟩
        · rw [h0]; simp
        · rw [h0]
          refine ⟨by simp, fun t ht => ?_⟩
          rw [List.mem_singleton.1 ht]
          exact (legible_iff _ _).2 ⟨v, hc⟩
      · intro h d hd
        rw [desc_eq] at hd
        obtain ⟨q, hq, rfl⟩ := List.mem_map.1 hd
        rw [heard_eq hm hq]
        obtain ⟨h1, h2⟩ := h q hq
        match hg : given es q.1 with
        | [] => exact ⟨none, (gains_once q.2 _ _ ((own env).plain _ (option_mem env hq))).2 (.inl ⟨rfl, rfl⟩)⟩
        | [t] =>
          rw [hg] at h2
          obtain ⟨v, hv⟩ := (legible_iff _ _).1 (h2 t (by simp))
          exact ⟨_, (gains_once q.2 _ _ ((own env).plain _ (option_mem env hq))).2 (.inr ⟨t, v, rfl, hv, rfl⟩)⟩
        | _ :: _ :: _ => rw [hg] at h1; simp at h1
    · exfalso
      apply hs
      refine ⟨fun _ h => h, noClash env, fun n hn => ?_⟩
      obtain ⟨o, ho, rfl, hk, hreg⟩ := hn
      obtain ⟨-, -, m3⟩ := (SharedFile.marked_mem hm).1 o ho
      have hacc : o.stringKey ∈ declared.map (·.1) := by
        by_contra hx
        rw [m3.2 fun h => hx ((accepts_iff env _).1 h)] at hreg
        cases hreg
      obtain ⟨q, hq, he⟩ := List.mem_map.1 hacc
      exact ⟨_, option_mem env hq, (option_own env hq).trans he⟩
  have src : ∀ os p, parseConfigFile text (setOptions env) true = .ok p → p = { desc := setOptions env, options := os } →
      ∀ q ∈ [({ desc := setOptions env, options := os } : Parsed)], SourceOf (setOptions env) q := by
    rintro os p hp rfl q hq
    rw [List.mem_singleton.1 hq]
    exact C123_source env _ (own env) _ (noClash env) (fun _ h => h) text true _ hp
  have quiet : ∀ os p m, parseConfigFile text (setOptions env) true = .ok p → p = { desc := setOptions env, options := os } →
      Stores {} ([({ desc := setOptions env, options := os } : Parsed)].map fun p => (p, false)) m → m.notify.2 = none := by
    intro os p m hp he hm
    rw [C121_notify env _ (own env) _ (src os p hp he) m hm]
    rintro d hd ⟨-, hr, -⟩
    rw [desc_eq] at hd
    obtain ⟨q, -, rfl⟩ := List.mem_map.1 hd
    obtain ⟨n, k⟩ := q
    cases k <;> cases hr
  constructor
  · intro m u h
    unfold parseFile at h
    cases hp : parseConfigFile text (setOptions env) true with
    | error f => rw [hp] at h; cases h
    | ok p =>
      obtain ⟨-, es, os, he, hm, hpe, -⟩ := (C123_read text (setOptions env) true p).1 hp
      have hcol := (C123_passed_on text (setOptions env) true p hp es he .excludePositional (others es)).2 (passed_others es)
      rw [hp] at h
      dsimp only at h
      rw [hcol] at h
      cases hst : store p {} with
      | mk m' e =>
        rw [hst] at h
        cases e with
        | some f => cases h
        | none =>
          dsimp only at h
          have hS : Stores {} ([({ desc := setOptions env, options := os } : Parsed)].map fun p => (p, false)) m' := by
            rw [hpe] at hst
            exact .cons hst (.nil _)
          have hq := quiet os p m' hp hpe hS
          cases hn : m'.notify with
          | mk evs e =>
            rw [hn] at h hq
            dsimp only at hq
            subst hq
            cases h
            have hl := (all es os hm).1 ⟨_, hS⟩
            refine ⟨es, he, hl, fun q hq => ?_, rfl⟩
            have hsrc := src os p hp hpe
            by_cases hg : Mentions os q.1
            · left
              obtain ⟨r, hr, hv⟩ := C121_given env _ (own env) _ hsrc m hS _ (option_mem env hq) _ (List.mem_singleton.2 rfl) ((option_own env hq).symm ▸ hg)
              rw [option_own env hq] at hv
              rw [heard_eq hm hq] at hr
              rcases (gains_once q.2 _ r ((own env).plain _ (option_mem env hq))).1 hr with ⟨h0, -⟩ | ⟨x, v, h0, hc, rfl⟩
              · exfalso
                obtain ⟨o, ho, hk, h1, h2⟩ := hg
                have ht := marked_tokens hm (List.mem_map_of_mem (f := (·.1)) hq)
                rw [h0] at ht
                have : o ∈ occurrences os q.1 := List.mem_filter.2 ⟨ho, by simp [hk, h1, h2]⟩
                have := List.mem_map_of_mem (f := (·.value)) this
                unfold tokensOf at ht
                rw [ht] at this
                cases this
              · refine ⟨x, v, h0, hc, ?_⟩
                unfold VarMap.get
                rw [show m.map.get? q.1 = _ from hv]
                rfl
            · right
              have hv := (C121_not_given env _ (own env) _ hsrc m hS _ (option_mem env hq)
                (by intro p hp; rw [List.mem_singleton.1 hp, option_own env hq]; exact hg)).1 ⟨_, List.mem_singleton.2 rfl, option_mem env hq⟩
              rw [option_own env hq] at hv
              have ht := marked_tokens hm (List.mem_map_of_mem (f := (·.1)) hq)
              have h0 : given es q.1 = [] := by
                have : occurrences os q.1 = [] := by
                  refine List.filter_eq_nil_iff.2 fun o ho hc => hg ?_
                  simp only [ne_eq, decide_eq_true_eq] at hc
                  exact ⟨o, ho, hc.1, hc.2.1, hc.2.2⟩
                unfold tokensOf at ht
                rw [this] at ht
                exact List.map_eq_nil_iff.1 ht.symm
              refine ⟨h0, ?_⟩
              unfold VarMap.get
              rw [show m.map.get? q.1 = _ from hv]
              obtain ⟨n, k⟩ := q
              cases k <;> rfl
  · intro es he hl
    obtain ⟨os, hm⟩ := SharedFile.marked_exists (setOptions env) es
    have hp := (C123_read text (setOptions env) true _).2 ⟨declarable env, es, os, he, hm, rfl, by intro h; cases h⟩
    obtain ⟨m, hS⟩ := (all es os hm).2 hl
    have hq := quiet os _ m hp rfl hS
    unfold parseFile
    rw [hp]
    dsimp only
    rw [stores_one hS]
    dsimp only
    cases hn : m.notify with
    | mk evs e =>
      rw [hn] at hq
      cases hq
      exact ⟨_, _, rfl⟩

theorem inOrder_ok (l : List (Except Ending Unit)) : inOrder l = .ok () ↔ ∀ x ∈ l, x = .ok () := by
  induction l with
  | nil => simp [inOrder]
  | cons x l ih =>
    cases x with
    | ok u => simp [inOrder, ih]
    | error e => simp [inOrder]

theorem assert_ok (b : Bool) : assert b = .ok () ↔ b = true := by cases b <;> simp [assert]

theorem checkString_ok {env : Env} {m : VarMap} {es : List (Str × Str)} (h : Holds env m es) {n e : Str} (hn : (n, Kind.text) ∈ declared) :
    checkString m n e = .ok () ↔ given es n = [e] := by
  unfold checkString VarValue.as
  rcases h _ hn with ⟨t, v, h1, h2, h3⟩ | ⟨h1, h2⟩
  · cases h2 with
    | string s =>
      rw [h3, h1]
      simp [AVal.type, SVal.type, assert_ok]
  · rw [h2, h1]
    simp

theorem checkNumber_ok {env : Env} {agrees : Nat → Int → Str → Bool} {m : VarMap} {es : List (Str × Str)} (h : Holds env m es) {n l : Str} {ty : Nat}
    (hn : (n, Kind.number ty) ∈ declared) :
    checkNumber agrees m n ty l = .ok () ↔ ∃ t v, given es n = [t] ∧ env.lex ty t = some v ∧ agrees ty v l = true := by
  unfold checkNumber VarValue.as
  rcases h _ hn with ⟨t, v, h1, h2, h3⟩ | ⟨h1, h2⟩
  · cases h2 with
    | cast _ _ v hv =>
      rw [h3, h1]
      simp [AVal.type, SVal.type, assert_ok, hv]
  · rw [h2, h1]
    simp

theorem yes_no (t : Str) (h : Yes t) : ¬ No t := by
  intro h'
  have : ∀ w ∈ yesWords, w ∉ noWords := by decide
  exact this _ h h'

theorem checkOn_ok {env : Env} {m : VarMap} {es : List (Str × Str)} (h : Holds env m es) {n : Str} (hn : (n, Kind.switch) ∈ declared) :
    checkBool m n true = .ok () ↔ ∃ t, given es n = [t] ∧ Yes t := by
  unfold checkBool VarValue.as
  rcases h _ hn with ⟨t, v, h1, h2, h3⟩ | ⟨h1, h2⟩
  · rcases (converts_bool t v).1 h2 with ⟨hy, rfl⟩ | ⟨hy, rfl⟩
    · rw [h3, h1]
      simp [AVal.type, SVal.type, assert_ok, hy]
    · have : ¬ Yes t := fun hy' => yes_no t hy' hy
      rw [h3, h1]
      simp [AVal.type, SVal.type, assert_ok, this]
  · rw [h2, h1]
    simp [AVal.type, SVal.type, assert_ok]

theorem checkOff_ok {env : Env} {m : VarMap} {es : List (Str × Str)} (h : Holds env m es) {n : Str} (hn : (n, Kind.switch) ∈ declared) :
    checkBool m n false = .ok () ↔ ∀ t ∈ given es n, No t := by
  unfold checkBool VarValue.as
  rcases h _ hn with ⟨t, v, h1, h2, h3⟩ | ⟨h1, h2⟩
  · rcases (converts_bool t v).1 h2 with ⟨hy, rfl⟩ | ⟨hy, rfl⟩
    · have := yes_no t hy
      rw [h3, h1]
      simp [AVal.type, SVal.type, assert_ok, this]
    · rw [h3, h1]
      simp [AVal.type, SVal.type, assert_ok, hy]
  · rw [h2, h1]
    simp [AVal.type, SVal.type, assert_ok]

theorem checkUnregistered_ok (a b : Str) (u : List Str) :
    (checkUnregistered u 0 a = .ok () ∧ checkUnregistered u 1 b = .ok ()) ↔ [a, b] <+: u := by
  unfold checkUnregistered
  match u with
  | [] => simp
  | [x] => simp
  | x :: y :: u =>
    simp only [List.getElem?_cons_zero, List.getElem?_cons_succ, assert_ok, List.cons_prefix_cons, beq_iff_eq, List.nil_prefix, and_true]
    rw [eq_comm, @eq_comm _ y]

theorem results {env : Env} {agrees : Nat → Int → Str → Bool} {m : VarMap} {es : List (Str × Str)} (h : Holds env m es) (u : List Str) :
    checkResults agrees m u = .ok () ↔ (∀ q ∈ strings, given es q.1 = [q.2]) ∧
      (∀ q ∈ numbers, ∃ t v, given es q.1 = [t] ∧ env.lex q.2.1 t = some v ∧ agrees q.2.1 v q.2.2 = true) ∧
      (∀ n ∈ on, ∃ t, given es n = [t] ∧ Yes t) ∧ (∀ n ∈ off, ∀ t ∈ given es n, No t) ∧
      [str% "unregistered_entry", str% "unregistered value"] <+: u := by
  have hs : ∀ q ∈ strings, (checkString m q.1 q.2 = .ok () ↔ given es q.1 = [q.2]) := by
    intro q hq
    refine checkString_ok h ?_
    simp only [strings, List.mem_cons, List.not_mem_nil, or_false] at hq
    rcases hq with rfl | rfl | rfl | rfl <;> simp [declared]
  have hnm : ∀ q ∈ numbers, (q.1, Kind.number q.2.1) ∈ declared := by
    intro q hq
    simp only [numbers, List.mem_cons, List.not_mem_nil, or_false] at hq
    rcases hq with rfl | rfl | rfl | rfl | rfl | rfl | rfl | rfl | rfl | rfl | rfl | rfl | rfl | rfl <;> simp [declared]
  have hn : ∀ q ∈ numbers, (checkNumber agrees m q.1 q.2.1 q.2.2 = .ok () ↔
      ∃ t v, given es q.1 = [t] ∧ env.lex q.2.1 t = some v ∧ agrees q.2.1 v q.2.2 = true) := fun q hq => checkNumber_ok h (hnm q hq)
  have ho : ∀ n ∈ on, (checkBool m n true = .ok () ↔ ∃ t, given es n = [t] ∧ Yes t) := by
    intro n hn
    refine checkOn_ok h ?_
    simp only [on, List.mem_cons, List.not_mem_nil, or_false] at hn
    rcases hn with rfl | rfl | rfl | rfl | rfl <;> simp [declared]
  have hf : ∀ n ∈ off, (checkBool m n false = .ok () ↔ ∀ t ∈ given es n, No t) := by
    intro n hn
    refine checkOff_ok h ?_
    simp only [off, List.mem_cons, List.not_mem_nil, or_false] at hn
    rcases hn with rfl | rfl | rfl | rfl <;> simp [declared]
  have e1 := checkUnregistered_ok (str% "unregistered_entry") (str% "unregistered value") u
  have s1 : (∀ q ∈ strings, given es q.1 = [q.2]) ↔ ∀ q ∈ strings, checkString m q.1 q.2 = .ok () :=
    forall₂_congr fun q hq => (hs q hq).symm
  have s2 : (∀ q ∈ numbers, ∃ t v, given es q.1 = [t] ∧ env.lex q.2.1 t = some v ∧ agrees q.2.1 v q.2.2 = true) ↔
      ∀ q ∈ numbers, checkNumber agrees m q.1 q.2.1 q.2.2 = .ok () := forall₂_congr fun q hq => (hn q hq).symm
  have s3 : (∀ n ∈ on, ∃ t, given es n = [t] ∧ Yes t) ↔ ∀ n ∈ on, checkBool m n true = .ok () := forall₂_congr fun q hq => (ho q hq).symm
  have s4 : (∀ n ∈ off, ∀ t ∈ given es n, No t) ↔ ∀ n ∈ off, checkBool m n false = .ok () := forall₂_congr fun q hq => (hf q hq).symm
  rw [s1, s2, s3, s4, ← e1]
  unfold checkResults
  rw [inOrder_ok]
  simp only [strings, numbers, on, off, List.forall_mem_cons, List.not_mem_nil, false_implies, implies_true, and_true]
  constructor
  · rintro ⟨a1, a2, a3, a4, a5, a6, b1, b2, b3, b4, b5, b6, b7, b8, b9, b10, b11, b12, b13, b14, c1, c2, c3, c4, c5, c6, c7, c8, c9⟩
    exact ⟨⟨a1, a4, a5, a6⟩, ⟨b1, b2, b3, b4, b5, b6, b7, b8, b9, b10, b11, b12, b13, b14⟩, ⟨c1, c3, c5, c7, c9⟩, ⟨c2, c4, c6, c8⟩, a2, a3⟩
  · rintro ⟨⟨a1, a4, a5, a6⟩, ⟨b1, b2, b3, b4, b5, b6, b7, b8, b9, b10, b11, b12, b13, b14⟩, ⟨c1, c3, c5, c7, c9⟩, ⟨c2, c4, c6, c8⟩, a2, a3⟩
    exact ⟨a1, a2, a3, a4, a5, a6, b1, b2, b3, b4, b5, b6, b7, b8, b9, b10, b11, b12, b13, b14, c1, c2, c3, c4, c5, c6, c7, c8, c9⟩

end FileTypes

open FileTypes

/-- `parse_file` does not throw exactly if the file is well-formed, gives no option twice, and every value can be read; it returns what is not declared. -/
theorem C157_parse_file (env : Env) (text : Str) (u : List Str) :
    (∃ m, parseFile env text = .ok (m, u)) ↔ ∃ es, FileEntries text es ∧ AllLegible env es ∧ u = others es := by
  constructor
  · rintro ⟨m, h⟩
    obtain ⟨es, h1, h2, -, h3⟩ := (runs env text).1 m u h
    exact ⟨es, h1, h2, h3⟩
  · rintro ⟨es, h1, h2, rfl⟩
    obtain ⟨m, u, h⟩ := (runs env text).2 es h1 h2
    obtain ⟨es', h3, -, -, rfl⟩ := (runs env text).1 m u h
    rw [C123_unique text es es' h1 h3]
    exact ⟨m, h⟩

/-- The program gets to its end exactly with the files it expects. -/
theorem C157_checks (env : Env) (agrees : Nat → Int → Str → Bool) (text : Str) :
    FileTypes.main env agrees text = .ok () ↔ ∃ es, FileEntries text es ∧ Expected env agrees es := by
  constructor
  · intro h
    unfold FileTypes.main at h
    cases hp : parseFile env text with
    | error f => rw [hp] at h; cases h
    | ok r =>
      obtain ⟨m, u⟩ := r
      rw [hp] at h
      obtain ⟨es, h1, h2, h3, rfl⟩ := (runs env text).1 m u hp
      obtain ⟨r1, r2, r3, r4, r5⟩ := (results h3 _).1 h
      exact ⟨es, h1, h2, r1, r2, r3, r4, r5⟩
  · rintro ⟨es, h1, h2⟩
    obtain ⟨m, u, hp⟩ := (runs env text).2 es h1 h2.legible
    obtain ⟨es', h3, -, h4, rfl⟩ := (runs env text).1 m u hp
    cases C123_unique text es es' h1 h3
    unfold FileTypes.main
    rw [hp]
    exact (results h4 _).2 ⟨h2.strings, h2.numbers, h2.on, h2.off, h2.others⟩


namespace FileTypes

/-- The entries of the program's own file. -/
def ownEntries : List (Str × Str) :=
  [(str% "global_string", str% "global value"), (str% "unregistered_entry", str% "unregistered value"), (str% "strings.word", str% "word"),
   (str% "strings.phrase", str% "this is a phrase"), (str% "strings.quoted", str% "\"quotes are in result\""), (str% "ints.positive", str% "41"),
   (str% "ints.negative", str% "-42"), (str% "floats.positive", str% "51.1"), (str% "floats.negative", str% "-52.1"),
   (str% "floats.double", str% "53.1234567890"), (str% "floats.int", str% "54"), (str% "floats.int_dot", str% "55."), (str% "floats.dot", str% ".56"),
   (str% "floats.exp_lower", str% "57.1e5"), (str% "floats.exp_upper", str% "58.1E5"), (str% "floats.exp_decimal", str% ".591e5"),
   (str% "floats.exp_negative", str% "60.1e-5"), (str% "floats.exp_negative_val", str% "-61.1e5"),
   (str% "floats.exp_negative_negative_val", str% "-62.1e-5"), (str% "booleans.number_true", str% "1"), (str% "booleans.number_false", str% "0"),
   (str% "booleans.yn_true", str% "yes"), (str% "booleans.yn_false", str% "no"), (str% "booleans.tf_true", str% "true"),
   (str% "booleans.tf_false", str% "false"), (str% "booleans.onoff_true", str% "on"), (str% "booleans.onoff_false", str% "off"),
   (str% "booleans.present_equal_true", [])]

set_option maxRecDepth 20000 in
theorem own_read : parseConfigFile makeFile [] true = .ok { desc := [], options := ownEntries.map fun e => itemOption e.1 e.2 true } := by
  with_unfolding_all rfl

theorem marked_none (es : List (Str × Str)) : Marked [] es (es.map fun e => itemOption e.1 e.2 true) := by
  induction es with
  | nil => exact .nil
  | cons e es ih =>
    refine .unknown ?_ ih
    rintro ⟨d, hd, -⟩
    cases hd

theorem own_entries : FileEntries makeFile ownEntries := by
  obtain ⟨-, es, os, he, hm, hpe, -⟩ := (C123_read makeFile [] true _).1 own_read
  cases hpe
  rw [← SharedFile.marked_entries hm (marked_none ownEntries)]
  exact he

/-- Which number of the file is for which option. -/
theorem own_given : numbers.map (fun q => given ownEntries q.1) = ownNumbers.map (fun q => [q.2.1]) := by decide +kernel

end FileTypes

/-- Run on the file that it makes, the program depends on the numbers alone. -/
theorem C157_own_file (env : Env) (agrees : Nat → Int → Str → Bool) :
    FileTypes.main env agrees makeFile = .ok () ↔ ∀ q ∈ ownNumbers, ∃ v, env.lex q.1 q.2.1 = some v ∧ agrees q.1 v q.2.2 = true := by
  have hnum : (∀ q ∈ FileTypes.numbers, ∃ t v, given ownEntries q.1 = [t] ∧ env.lex q.2.1 t = some v ∧ agrees q.2.1 v q.2.2 = true) ↔
      ∀ q ∈ ownNumbers, ∃ v, env.lex q.1 q.2.1 = some v ∧ agrees q.1 v q.2.2 = true := by
    have h := own_given
    simp only [FileTypes.numbers, ownNumbers, List.map_cons, List.map_nil, List.cons.injEq, and_true] at h
    obtain ⟨h1, h2, h3, h4, h5, h6, h7, h8, h9, h10, h11, h12, h13, h14⟩ := h
    have one : ∀ {g : List Str} {x : Str} {ty : Nat} {l : Str}, g = [x] →
        ((∃ t v, g = [t] ∧ env.lex ty t = some v ∧ agrees ty v l = true) ↔ ∃ v, env.lex ty x = some v ∧ agrees ty v l = true) := by
      rintro g x ty l rfl
      constructor
      · rintro ⟨t, v, ht, h⟩
        cases ht
        exact ⟨v, h⟩
      · rintro ⟨v, h⟩
        exact ⟨x, v, rfl, h⟩
    simp only [FileTypes.numbers, ownNumbers, List.forall_mem_cons, List.not_mem_nil, false_implies, implies_true, and_true]
    rw [one h1, one h2, one h3, one h4, one h5, one h6, one h7, one h8, one h9, one h10, one h11, one h12, one h13, one h14]
  rw [C157_checks, ← hnum]
  constructor
  · rintro ⟨es, h1, h2⟩
    rw [C123_unique _ _ _ own_entries h1]
    exact h2.numbers
  · intro h
    refine ⟨_, own_entries, ?_, by decide +kernel, h, ?_, ?_, by decide +kernel⟩
    · have h' := h
      simp only [FileTypes.numbers, List.forall_mem_cons] at h'
      have leg : ∀ {n : Str} {ty : Nat} {l : Str}, (∃ t v, given ownEntries n = [t] ∧ env.lex ty t = some v ∧ agrees ty v l = true) →
          (given ownEntries n).length ≤ 1 ∧ ∀ t ∈ given ownEntries n, Legible env (.number ty) t := by
        rintro n ty l ⟨t, v, ht, hv, -⟩
        rw [ht]
        refine ⟨by simp, fun t' ht' => ?_⟩
        cases List.mem_singleton.1 ht'
        exact ⟨v, hv⟩
      obtain ⟨n1, n2, n3, n4, n5, n6, n7, n8, n9, n10, n11, n12, n13, n14, -⟩ := h'
      have text : ∀ n : Str, (given ownEntries n).length ≤ 1 → (given ownEntries n).length ≤ 1 ∧ ∀ t ∈ given ownEntries n, Legible env .text t :=
        fun n h => ⟨h, fun _ _ => trivial⟩
      have none : ∀ (n : Str) (k : Kind), given ownEntries n = [] → (given ownEntries n).length ≤ 1 ∧ ∀ t ∈ given ownEntries n, Legible env k t := by
        intro n k h
        rw [h]
        simp
      have sw : ∀ n : Str, ((given ownEntries n).length ≤ 1 ∧ ∀ t ∈ given ownEntries n, t.map Char.toLower ∈ yesWords ∨ t.map Char.toLower ∈ noWords) →
          (given ownEntries n).length ≤ 1 ∧ ∀ t ∈ given ownEntries n, Legible env .switch t := fun n h => h
      unfold AllLegible
      simp only [declared, List.forall_mem_cons, List.not_mem_nil, false_implies, implies_true, and_true]
      exact ⟨text _ (by decide +kernel), text _ (by decide +kernel), text _ (by decide +kernel), text _ (by decide +kernel), leg n1, leg n2,
        none _ _ (by decide +kernel), none _ _ (by decide +kernel), none _ _ (by decide +kernel), leg n3, leg n4, leg n5, leg n6, leg n7, leg n8, leg n9, leg n10,
        leg n11, leg n12, leg n13, leg n14, sw _ (by decide +kernel), sw _ (by decide +kernel), sw _ (by decide +kernel), sw _ (by decide +kernel),
        sw _ (by decide +kernel), sw _ (by decide +kernel), sw _ (by decide +kernel), sw _ (by decide +kernel), sw _ (by decide +kernel), sw _ (by decide +kernel)⟩
    · have : ∀ n ∈ FileTypes.on, ∃ t ∈ given ownEntries n, given ownEntries n = [t] ∧ t.map Char.toLower ∈ yesWords := by decide +kernel
      intro n hn
      obtain ⟨t, -, h1, h2⟩ := this n hn
      exact ⟨t, h1, h2⟩
    · have : ∀ n ∈ FileTypes.off, ∀ t ∈ given ownEntries n, t.map Char.toLower ∈ noWords := by decide +kernel
      exact this

namespace FileTypes

theorem break_unique {a b x y : Str} (ha : '\n' ∉ a) (hb : '\n' ∉ b) (h : a ++ '\n' :: x = b ++ '\n' :: y) : a = b ∧ x = y := by
  induction a generalizing b with
  | nil =>
    cases b with
    | nil => cases h; exact ⟨rfl, rfl⟩
    | cons c b => cases h; simp at hb
  | cons c a ih =>
    cases b with
    | nil => cases h; simp at ha
    | cons d b =>
      injection h with h1 h2
      obtain ⟨rfl, h3⟩ := ih (fun h => ha (List.mem_cons_of_mem _ h)) (fun h => hb (List.mem_cons_of_mem _ h)) h2
      rw [h1]
      exact ⟨rfl, h3⟩

theorem lines_unique {ls ls' : List Str} {last last' : Str} (h : ls.flatMap (· ++ ['\n']) ++ last = ls'.flatMap (· ++ ['\n']) ++ last')
    (h1 : ∀ l ∈ ls, '\n' ∉ l) (h2 : '\n' ∉ last) (h1' : ∀ l ∈ ls', '\n' ∉ l) (h2' : '\n' ∉ last') : ls ++ [last] = ls' ++ [last'] := by
  induction ls generalizing ls' with
  | nil =>
    cases ls' with
    | nil => simpa using h
    | cons l ls' =>
      rw [List.flatMap_nil, List.nil_append] at h
      exact absurd (by rw [h]; simp) h2
  | cons l ls ih =>
    cases ls' with
    | nil =>
      rw [List.flatMap_nil, List.nil_append] at h
      exact absurd (by rw [← h]; simp) h2'
    | cons l' ls' =>
      simp only [List.flatMap_cons, List.append_assoc, List.cons_append, List.nil_append] at h
      obtain ⟨rfl, h3⟩ := break_unique (h1 _ (by simp)) (h1' _ (by simp)) h
      rw [List.cons_append, List.cons_append, ih h3 (fun l hl => h1 l (by simp [hl])) (fun l hl => h1' l (by simp [hl]))]

theorem entries_lines {pre : Str} {ls : List Str} {es : List (Str × Str)} (h : Entries pre ls es) :
    ∀ l ∈ ls, '=' ∈ l ∨ '[' ∈ l ∨ '#' ∈ l ∨ ∀ c ∈ l, WhiteSpace c := by
  induction h with
  | nil => simp
  | @blank pre l ls es h _ ih =>
    rintro x hx
    rcases List.mem_cons.1 hx with rfl | hx
    · obtain ⟨t, com, rfl, -, hc, a, b, rfl, h1, h2, -⟩ := h
      rcases hc with rfl | hc
      · right; right; right
        intro c hc
        simp only [List.append_nil, List.mem_append] at hc
        rcases hc with hc | hc
        · exact h1 c hc
        · exact h2 c hc
      · right; right; left
        cases com with
        | nil => cases hc
        | cons c com => cases hc; simp
    · exact ih x hx
  | header s h _ _ ih =>
    rintro x hx
    rcases List.mem_cons.1 hx with rfl | hx
    · exact .inr (.inl (FileParts.says_chars h '[' (by simp)).1)
    · exact ih x hx
  | item s n v h hi _ ih =>
    rintro x hx
    rcases List.mem_cons.1 hx with rfl | hx
    · obtain ⟨a, b, hs, -⟩ := hi.split
      exact .inl (FileParts.says_chars h '=' (by rw [hs]; simp)).1
    · exact ih x hx

end FileTypes

/-- Lines of the kinds that the program leaves out because they fail: without `=`, `[` and `#`, but not blank. Wherever it stands, such a line keeps the
program from getting to its end. -/
theorem C157_left_out (env : Env) (agrees : Nat → Int → Str → Bool) (before after : List Str) (l last : Str) (hb : ∀ x ∈ before ++ l :: after, '\n' ∉ x)
    (hl : '\n' ∉ last) (h1 : '=' ∉ l) (h2 : '[' ∉ l) (h3 : '#' ∉ l) (h4 : ∃ c ∈ l, ¬ WhiteSpace c) :
    FileTypes.main env agrees ((before ++ l :: after).flatMap (· ++ ['\n']) ++ last) ≠ .ok () := by
  rw [Ne, C157_checks]
  rintro ⟨es, ⟨ls, last', he, hls, hlast, hes⟩, -⟩
  have hu := lines_unique he hb hl hls hlast
  rw [← hu] at hes
  rcases entries_lines hes l (by simp) with h | h | h | h
  · exact h1 h
  · exact h2 h
  · exact h3 h
  · obtain ⟨c, hc, hw⟩ := h4
    exact hw (h c hc)

namespace FileTypes

/-- A `lexical_cast` that reads the numbers of the program's own file, as their positions in the list, and a comparison that is right about them. -/
def exampleEnv : Env := { Test.env with lex := fun ty t => ((ownNumbers.findIdx? fun q => q.1 == ty && q.2.1 == t)).map Int.ofNat }
def exampleAgrees (ty : Nat) (v : Int) (l : Str) : Bool := (ownNumbers.findIdx? fun q => q.1 == ty && q.2.2 == l).map Int.ofNat == some v

end FileTypes

/-- The program gets to its end; and not with one of the lines left out, the one with the semicolon. -/
example : FileTypes.main exampleEnv exampleAgrees makeFile = .ok () ∧
    FileTypes.main exampleEnv exampleAgrees (str% "; a windows style comment\n" ++ makeFile) ≠ .ok () := by
  constructor
  · rw [C157_own_file]
    have : ∀ q ∈ ownNumbers, ∃ v ∈ (List.range 14).map Int.ofNat, exampleEnv.lex q.1 q.2.1 = some v ∧ exampleAgrees q.1 v q.2.2 = true := by decide +kernel
    intro q hq
    obtain ⟨v, -, h⟩ := this q hq
    exact ⟨v, h⟩
  · obtain ⟨ls, last, he, h1, h2, -⟩ := own_entries
    rw [he, show str% "; a windows style comment\n" ++ (ls.flatMap (· ++ ['\n']) ++ last) =
      (([] : List Str) ++ (str% "; a windows style comment") :: ls).flatMap (· ++ ['\n']) ++ last from rfl]
    refine C157_left_out _ _ [] ls _ last ?_ h2 (by decide) (by decide) (by decide) ⟨';', by decide, by unfold WhiteSpace; decide⟩
    intro x hx
    rcases List.mem_cons.1 hx with rfl | hx
    · decide
    · exact h1 x hx

end PO
