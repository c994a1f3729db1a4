import Verif.Lemmas.Message
import Verif.Spec.Message
import Verif.Model.Cmdline
import Verif.Tests.Util
/-
C47-C49: the text of error messages.
-/
namespace PO
open Spec

/-! ### Templates as texts with holes -/

/-- The three forms of templates. -/
inductive Form
  | opt (a b : Str)
  | val (b : Str)
  | line

def SyntaxKind.form : SyntaxKind → Form
  | .emptyAdjacentParameter => .opt (str% "the argument for ") (str% " should follow immediately after the equal sign")
  | .missingParameter => .opt (str% "the required argument for ") (str% " is missing")
  | .unrecognizedLine => .line
  | .longNotAllowed => .opt (str% "the unabbreviated ") (str% " is not valid")
  | .longAdjacentNotAllowed => .opt (str% "the unabbreviated ") (str% " does not take any arguments")
  | .shortAdjacentNotAllowed => .opt (str% "the abbreviated ") (str% " does not take any arguments")
  | .extraParameter => .opt [] (str% " does not take any arguments")

def ErrClass.form : ErrClass → Form
  | .unknownOption => .opt (str% "unrecognised ") []
  | .ambiguousOption _ => .opt [] (str% " is ambiguous")
  | .multipleValues => .opt [] (str% " only takes a single argument")
  | .multipleOccurrences => .opt [] (str% " cannot be specified more than once")
  | .requiredOption => .opt (str% "the ") (str% " is required but missing")
  | .cmdlineSyntax k => k.form
  | .configSyntax k => k.form
  | .validation .invalidBoolValue => .val (str% " is invalid. Valid choices are 'on|off', 'yes|no', '1|0' and 'true|false'")
  | .validation .invalidOptionValue => .val (str% " is invalid")
  | .validation .multipleValuesNotAllowed => .opt [] (str% " only takes a single argument")
  | .validation .atLeastOneValueRequired => .opt [] (str% " requires at least one argument")
  | .validation .invalidOption => .opt [] (str% " is not valid")

def kCanon : Str := str% "canonical_option"
def kLine : Str := str% "invalid_line"
def kOption : Str := str% "option"
def kToken : Str := str% "original_token"
def kPrefix : Str := str% "prefix"
def kValue : Str := str% "value"

def Form.blocks (ne ve : Bool) : Form → List Blk
  | .opt a _ => if ne then [] else [.text (a ++ str% "option "), .hole kCanon []]
  | .val _ =>
    (if ve then [] else [.text (str% "the argument ("), .hole kValue []]) ++
    (if ne then [] else [.text ((if ve then str% "the argument" else str% ")") ++ str% " for option "), .hole kCanon []])
  | .line => [.text (str% "the options configuration file contains an invalid line "), .hole kLine []]

def Form.last (ne ve : Bool) : Form → Str
  | .opt a b => if ne then a ++ str% "option" ++ b else b
  | .val b => if ne then (if ve then str% "the argument" else str% ")") ++ str% " for option" ++ b else b
  | .line => []

/-- A substitution with the given entries empty or not. -/
def repSubst (ne pe ve : Bool) : SMap Str :=
  [(kCanon, if ne then [] else ['x']), (kPrefix, if pe then [] else ['x']), (kValue, if ve then [] else ['x'])]

set_option maxRecDepth 4000 in
theorem defaults_amb (ne pe ve : Bool) : applyDefaults 5 (repSubst ne pe ve) substDefaults (str% "option '%canonical_option%' is ambiguous") =
    some (catBlks ((Form.opt [] (str% " is ambiguous")).last ne ve) ((Form.opt [] (str% " is ambiguous")).blocks ne ve)) := by
  cases ne <;> cases pe <;> cases ve <;> decide

set_option maxRecDepth 4000 in
theorem defaults_eq (c : ErrClass) (ne pe ve : Bool) : applyDefaults 5 (repSubst ne pe ve) substDefaults c.template =
    some (catBlks (c.form.last ne ve) (c.form.blocks ne ve)) := by
  rcases c with _ | _ | _ | _ | _ | k | k | k <;> (try cases k) <;>
    first | exact defaults_amb ne pe ve | (cases ne <;> cases pe <;> cases ve <;> decide)

theorem last_clean (c : ErrClass) (ne ve : Bool) : '%' ∉ c.form.last ne ve := by
  rcases c with _ | _ | _ | _ | _ | k | k | k <;> (try cases k) <;> cases ne <;> cases ve <;>
    simp [ErrClass.form, SyntaxKind.form, Form.last]

/-! ### Substitution maps -/

/-- The substitutions of an exception object, in key order. -/
def shape (line : Option Str) (n t : Str) (value : Option Str) : SMap Str :=
  line.toList.map ((kLine, ·)) ++ [(kOption, n), (kToken, t)] ++ value.toList.map ((kValue, ·))

/-- The same with the two entries added by `substitute_placeholders`. -/
def fullShape (name pre : Str) (line : Option Str) (n t : Str) (value : Option Str) : SMap Str :=
  (kCanon, name) :: line.toList.map ((kLine, ·)) ++ [(kOption, n), (kToken, t), (kPrefix, pre)] ++
    value.toList.map ((kValue, ·))

theorem fullShape_eq (name pre : Str) (line : Option Str) (n t : Str) (value : Option Str) :
    SMap.set (SMap.set (shape line n t value) (str% "canonical_option") name) (str% "prefix") pre =
      fullShape name pre line n t value := by
  cases line <;> cases value <;> rfl

/-- Exception objects as the library builds them: constructor, then possibly an offending value or
line, and `add_context` any number of times. -/
inductive Built : OptErr → Prop
  | mk (cls n t style) : Built (OptErr.mk' cls n t style)
  | value (e v) : Built e → Built (e.setSubst (str% "value") v)
  | line (e l) : Built e → Built (e.setSubst (str% "invalid_line") l)
  | context (e n t style) : Built e → Built (e.addContext n t style)

theorem built_shape {e : OptErr} (h : Built e) : ∃ line n t value, e.subst = shape line n t value := by
  induction h with
  | mk cls n t style => exact ⟨none, n, t, none, rfl⟩
  | value e v _ ih =>
    obtain ⟨line, n, t, value, ih⟩ := ih
    refine ⟨line, n, t, some v, ?_⟩
    simp only [OptErr.setSubst, ih]
    cases line <;> cases value <;> rfl
  | line e l _ ih =>
    obtain ⟨line, n, t, value, ih⟩ := ih
    refine ⟨some l, n, t, value, ?_⟩
    simp only [OptErr.setSubst, ih]
    cases line <;> cases value <;> rfl
  | context e n' t' style _ ih =>
    obtain ⟨line, n, t, value, ih⟩ := ih
    by_cases hc : e.cls.noOptionName = true
    · refine ⟨line, n, t', value, ?_⟩
      simp only [OptErr.addContext, hc, if_true, OptErr.setSubst, ih]
      cases line <;> cases value <;> rfl
    · refine ⟨line, n', t', value, ?_⟩
      simp only [OptErr.addContext, hc, OptErr.setSubst, ih]
      cases line <;> cases value <;> rfl

/-- The text contains none of the six placeholders `%canonical_option%`, ..., `%value%`. -/
def Clean (s : Str) : Prop :=
  ∀ k ∈ [kCanon, kLine, kOption, kToken, kPrefix, kValue], ¬ placeholder k <:+: s

theorem fillable_text {ss : SMap Str} {s : Str} (h : ∀ p ∈ ss, ¬ placeholder p.1 <:+: s) : (Blk.text s).Fillable ss := by
  induction ss with
  | nil => trivial
  | cons p ss ih => exact ⟨h p (by simp), ih fun q hq => h q (by simp [hq])⟩

theorem placeholder_noPercent {k s : Str} (h : '%' ∉ s) : ¬ placeholder k <:+: s :=
  not_infix_of_not_mem (c := '%') (by simp [placeholder]) h

theorem fillable_hole {ss tt : SMap Str} {k v tail : Str} (h1 : ∀ p ∈ ss, p.1 ≠ k ∧ ¬ placeholder p.1 <:+: placeholder k ++ tail)
    (h2 : ¬ placeholder k <:+: v ++ tail) (h3 : ∀ p ∈ tt, ¬ placeholder p.1 <:+: v ++ tail) :
    (Blk.hole k tail).Fillable (ss ++ (k, v) :: tt) := by
  induction ss with
  | nil => simp only [List.nil_append, Blk.Fillable, if_true]; exact ⟨h2, fillable_text h3⟩
  | cons p ss ih =>
    obtain ⟨k', v'⟩ := p
    have := h1 (k', v') (by simp)
    simp only [List.cons_append, Blk.Fillable, if_neg this.1]
    exact ⟨this.2, ih fun q hq => h1 q (by simp [hq])⟩

theorem mem_fullShape {name pre : Str} {line : Option Str} {n t : Str} {value : Option Str} {p : Str × Str}
    (h : p ∈ fullShape name pre line n t value) : p.1 ∈ [kCanon, kLine, kOption, kToken, kPrefix, kValue] := by
  unfold fullShape at h
  simp only [List.cons_append, List.append_assoc, List.mem_cons, List.mem_append, List.mem_map, Option.mem_toList,
    List.nil_append] at h
  rcases h with rfl | ⟨_, _, rfl⟩ | rfl | rfl | rfl | ⟨_, _, rfl⟩ <;> simp

theorem key_noQuote {k : Str} (h : k ∈ [kCanon, kLine, kOption, kToken, kPrefix, kValue]) : '\'' ∉ k := by
  simp only [List.mem_cons, List.not_mem_nil, or_false] at h
  rcases h with rfl | rfl | rfl | rfl | rfl | rfl <;> decide

theorem get_full (name pre : Str) (line : Option Str) (n t : Str) (value : Option Str) :
    (SMap.get? (fullShape name pre line n t value) kCanon).getD [] = name ∧
    (SMap.get? (fullShape name pre line n t value) kPrefix).getD [] = pre ∧
    (SMap.get? (fullShape name pre line n t value) kLine).getD [] = line.getD [] ∧
    (SMap.get? (fullShape name pre line n t value) kValue).getD [] = value.getD [] := by
  cases line <;> cases value <;> exact ⟨rfl, rfl, rfl, rfl⟩

theorem defaults_shape (c : ErrClass) (name pre : Str) (line : Option Str) (n t : Str) (value : Option Str) (f : Nat) (hf : 5 ≤ f) :
    applyDefaults f (fullShape name pre line n t value) substDefaults c.template =
      some (catBlks (c.form.last (decide (name = [])) (decide (value.getD [] = [])))
        (c.form.blocks (decide (name = [])) (decide (value.getD [] = [])))) := by
  obtain ⟨g1, g2, _, g4⟩ := get_full name pre line n t value
  have h := applyDefaults_mono (f - 5) _ _ _ _ (defaults_eq c (decide (name = [])) (decide (pre = [])) (decide (value.getD [] = [])))
  rw [Nat.add_sub_cancel' hf] at h
  rw [← h]
  apply applyDefaults_congr
  intro d hd
  simp only [substDefaults, List.mem_cons, List.not_mem_nil, or_false] at hd
  rcases hd with rfl | rfl | rfl
  · rw [show (str% "canonical_option") = kCanon from rfl, g1]
    by_cases e : name = []
    · simp [e, repSubst, SMap.get?]
    · simp [e, repSubst, SMap.get?]
  · rw [show (str% "prefix") = kPrefix from rfl, g2]
    by_cases e : pre = []
    · simp [e, repSubst, SMap.get?, kCanon, kPrefix]
    · simp [e, repSubst, SMap.get?, kCanon, kPrefix]
  · rw [show (str% "value") = kValue from rfl, g4]
    by_cases e : value.getD [] = []
    · simp [e, repSubst, SMap.get?, kCanon, kPrefix, kValue]
    · simp [e, repSubst, SMap.get?, kCanon, kPrefix, kValue]

theorem not_infix_dec {p s : Str} (h : findSub s p = none) : ¬ p <:+: s := findSub_eq_none.1 h

theorem fill_canon {name : Str} (hc : Clean name) (pre : Str) (line : Option Str) (n t : Str) (value : Option Str) :
    (Blk.hole kCanon []).Fillable (fullShape name pre line n t value) := by
  refine fillable_hole (ss := []) (by simp) ?_ ?_
  · simpa using hc kCanon (by simp)
  · intro p hp
    rw [List.append_nil]
    exact hc p.1 (mem_fullShape (name := name) (List.mem_cons_of_mem _ hp))

theorem fill_value (name pre : Str) (line : Option Str) (n t v : Str) (hv : ¬ placeholder kValue <:+: v) :
    (Blk.hole kValue []).Fillable (fullShape name pre line n t (some v)) := by
  refine fillable_hole (tt := []) ?_ (by simpa using hv) (by simp)
  intro p hp
  simp only [List.mem_append, List.mem_cons, List.mem_map, List.not_mem_nil, or_false] at hp
  rw [List.append_nil]
  rcases hp with (rfl | ⟨_, _, rfl⟩) | rfl | rfl | rfl <;> (refine ⟨?_, not_infix_dec ?_⟩ <;> dsimp only <;> decide)

theorem fill_line (name pre l : Str) (n t : Str) (value : Option Str) (hl : Clean l) :
    (Blk.hole kLine []).Fillable (fullShape name pre (some l) n t value) := by
  refine fillable_hole (ss := [(kCanon, name)]) (tt := [(kOption, n), (kToken, t), (kPrefix, pre)] ++ value.toList.map ((kValue, ·))) ?_ ?_ ?_
  · intro p hp
    simp only [List.mem_cons, List.not_mem_nil, or_false] at hp
    subst hp
    (refine ⟨?_, not_infix_dec ?_⟩ <;> dsimp only <;> decide)
  · simpa using hl kLine (by simp)
  · intro p hp
    rw [List.append_nil]
    refine hl p.1 (mem_fullShape (name := name) (pre := pre) (line := some l) (n := n) (t := t) (value := value) ?_)
    unfold fullShape
    simp only [Option.toList_some, List.map_cons, List.map_nil, List.cons_append, List.nil_append]
    exact List.mem_cons_of_mem _ (List.mem_cons_of_mem _ hp)

/-- The message of every exception but `ambiguous_option`. -/
theorem substitute_template (e : OptErr) (c : ErrClass) (line : Option Str) (n t : Str) (value : Option Str) (name pre : Str)
    (hs : e.subst = shape line n t value) (hn : e.canonicalName = some name) (hp : e.canonicalPrefix = some pre)
    (hline : c.form = .line → line ≠ none) (cn : Clean name)
    (cv : ∀ v, value = some v → ¬ placeholder kValue <:+: v) (cl : ∀ l, line = some l → Clean l) (f : Nat) (hf : 5 ≤ f) :
    e.substitute f c.template = some (message name (value.getD []) (line.getD []) c) := by
  unfold OptErr.substitute
  rw [hn, hp]
  simp only
  rw [hs, fullShape_eq, defaults_shape c name pre line n t value f hf]
  simp only
  have hfill : ∀ b ∈ c.form.blocks (decide (name = [])) (decide (value.getD [] = [])),
      b.Fillable (fullShape name pre line n t value) := by
    have htext : ∀ s : Str, '%' ∉ s → (Blk.text s).Fillable (fullShape name pre line n t value) :=
      fun s hs => fillable_text fun p _ => placeholder_noPercent hs
    have hA : ∀ a b, c.form = .opt a b → '%' ∉ a := by
      intro a b h
      rcases c with _ | _ | _ | _ | _ | k | k | k <;> (try cases k) <;>
        first | exact Form.noConfusion h | (obtain ⟨rfl, _⟩ := Form.opt.inj h; decide)
    intro b hb
    cases hform : c.form with
    | opt a b' =>
      rw [hform] at hb
      simp only [Form.blocks] at hb
      split at hb
      · cases hb
      · simp only [List.mem_cons, List.not_mem_nil, or_false] at hb
        rcases hb with rfl | rfl
        · exact htext _ (by simpa using hA a b' hform)
        · exact fill_canon cn _ _ _ _ _
    | val b' =>
      rw [hform] at hb
      simp only [Form.blocks, List.mem_append] at hb
      rcases hb with hb | hb
      · split at hb
        · cases hb
        · rename_i hne
          simp only [List.mem_cons, List.not_mem_nil, or_false] at hb
          rcases hb with rfl | rfl
          · exact htext _ (by simp)
          · cases hval : value with
            | none => simp [hval] at hne
            | some v => exact fill_value _ _ _ _ _ _ (cv v hval)
      · split at hb
        · cases hb
        · simp only [List.mem_cons, List.not_mem_nil, or_false] at hb
          rcases hb with rfl | rfl
          · refine htext _ ?_
            split <;> simp
          · exact fill_canon cn _ _ _ _ _
    | line =>
      rw [hform] at hb
      simp only [Form.blocks, List.mem_cons, List.not_mem_nil, or_false] at hb
      rcases hb with rfl | rfl
      · exact htext _ (by simp)
      · cases hl : line with
        | none => exact absurd hl (hline hform)
        | some l => exact fill_line _ _ _ _ _ _ (cl l hl)
  have hlen : (c.form.blocks (decide (name = [])) (decide (value.getD [] = []))).length ≤ f := by
    refine Nat.le_trans ?_ hf
    cases c.form <;> simp only [Form.blocks] <;> (repeat' split) <;> simp
  rw [applySubsts_blocks f _ (fun p hp => key_noQuote (mem_fullShape hp)) _ (last_clean c _ _) _ hlen hfill]
  congr 1
  obtain ⟨g1, _, g3, g4⟩ := get_full name pre line n t value
  clear hfill
  generalize fullShape name pre line n t value = ss at g1 g3 g4 ⊢
  by_cases e1 : name = [] <;> by_cases e2 : value.getD [] = [] <;>
    rcases c with _ | _ | _ | _ | _ | k | k | k <;> (try cases k) <;>
    simp [ErrClass.form, SyntaxKind.form, Form.blocks, Form.last, catBlks, Blk.render, Blk.fill, g1, g3, g4, e1, e2, message,
      syntaxMessage, validMessage, optionText, argumentText]


/-! ### Ambiguous options -/

/-- The blocks of the list of alternatives. -/
def altBlks (lead : Str) : List Str → List Blk
  | [] => []
  | [a] => [.text lead, .hole kPrefix a]
  | [a, b] => [.text lead, .hole kPrefix a, .text (str% ", and "), .hole kPrefix b]
  | a :: as => .text lead :: .hole kPrefix a :: altBlks (str% ", ") as

theorem altBlks_lead (lead : Str) (xs : List Str) (h : xs ≠ []) : catBlks [] (altBlks lead xs) = lead ++ catBlks [] (altBlks [] xs) := by
  match xs with
  | [] => exact absurd rfl h
  | [a] => simp [altBlks, catBlks, Blk.render]
  | [a, b] => simp [altBlks, catBlks, Blk.render]
  | a :: b :: c :: xs => simp [altBlks, catBlks, Blk.render]

theorem altFold (t : Str) (xs : List Str) (last : Str) (h : xs ≠ []) :
    xs.foldl (fun t a => t ++ str% "'%prefix%" ++ a ++ str% "', ") t ++ str% "and " ++ str% "'%prefix%" ++ last ++ str% "'" =
      t ++ catBlks [] (altBlks [] (xs ++ [last])) := by
  induction xs generalizing t with
  | nil => exact absurd rfl h
  | cons a xs ih =>
    cases xs with
    | nil => simp [altBlks, catBlks, Blk.render, placeholder, kPrefix]
    | cons b xs =>
      rw [List.foldl_cons, ih _ (by simp)]
      have : altBlks [] (a :: b :: xs ++ [last]) = .text [] :: .hole kPrefix a :: altBlks (str% ", ") (b :: xs ++ [last]) := by
        cases xs <;> rfl
      rw [this]
      simp only [catBlks, Blk.render]
      rw [altBlks_lead (str% ", ") _ (by simp)]
      simp [placeholder, kPrefix]

/-- The distinct alternatives in order. -/
def distinct (alts : List Str) : List Str := SSet.insertAll [] alts

/-- Text between "is ambiguous and matches " and the alternatives. -/
def versionsText (alts : List Str) : Str :=
  if alts.length > 1 ∧ (distinct alts).length = 1 then str% "different versions of " else []

theorem ambiguousTemplate_eq (alts : List Str) (h : alts ≠ []) (T : Str) : ambiguousTemplate alts T =
    some (T ++ str% " and matches " ++ (versionsText alts ++ catBlks [] (altBlks [] (distinct alts)))) := by
  unfold ambiguousTemplate versionsText
  have hd : SSet.insertAll [] alts = distinct alts := rfl
  rw [hd]
  have hne : distinct alts ≠ [] := by
    intro h0
    obtain ⟨a, as, rfl⟩ := List.exists_cons_of_ne_nil h
    have : a ∈ distinct (a :: as) := (SSet.mem_insertAll [] (a :: as) a).2 (by simp)
    rw [h0] at this; cases this
  generalize distinct alts = set at hne
  rcases List.eq_nil_or_concat set with h0 | ⟨xs, last, rfl⟩
  · exact absurd h0 hne
  · simp only [List.concat_eq_append, List.reverse_append, List.reverse_cons, List.reverse_nil, List.nil_append, List.cons_append,
      List.dropLast_concat, List.length_append, List.length_cons, List.length_nil]
    cases xs with
    | nil =>
      simp only [List.length_nil, Nat.zero_add, Nat.lt_irrefl, if_false, List.nil_append, altBlks, gt_iff_lt]
      by_cases hv : 1 < alts.length ∧ True
      · rw [if_pos hv, if_pos hv]; simp [catBlks, Blk.render, placeholder, kPrefix]
      · rw [if_neg hv, if_neg hv]; simp [catBlks, Blk.render, placeholder, kPrefix]
    | cons a xs =>
      have h1 : (a :: xs).length + (0 + 1) > 1 := by simp
      have h2 : ¬ (alts.length > 1 ∧ (a :: xs).length + (0 + 1) = 1) := by simp
      rw [if_pos h1, if_neg h2, if_neg h2]
      rw [altFold _ _ _ (by simp)]
      simp

theorem placeholder_in_hole {k k' a : Str} (hk : '%' ∉ k) (hk' : '%' ∉ k') (ha : '%' ∉ a)
    (h : placeholder k' <:+: placeholder k ++ a) : k' = k := by
  obtain ⟨s, u, h⟩ := h
  cases s with
  | nil =>
    simp only [placeholder, List.nil_append, List.cons_append, List.append_assoc, List.cons.injEq, true_and] at h
    have h1 := congrArg (List.takeWhile (· != '%')) h
    have tw : ∀ (x y : Str), '%' ∉ x → (x ++ '%' :: y).takeWhile (· != '%') = x := by
      intro x y hx
      rw [List.takeWhile_append_of_pos]
      · simp
      · intro c hc
        simp only [bne_iff_ne, ne_eq]
        rintro rfl
        exact hx hc
    rwa [tw _ _ hk', tw _ _ hk] at h1
  | cons c s =>
    exfalso
    have h1 := congrArg (List.count '%') (congrArg List.tail h)
    simp [placeholder, List.count_append, List.count_eq_zero_of_not_mem hk, List.count_eq_zero_of_not_mem ha] at h1
    omega

theorem prefix_noPercent {e : OptErr} {pre : Str} (h : e.canonicalPrefix = some pre) : '%' ∉ pre := by
  unfold OptErr.canonicalPrefix at h
  split at h
  · injection h with h; subst h; decide
  · split at h
    · injection h with h; subst h; decide
    · split at h
      · injection h with h; subst h; decide
      · split at h
        · injection h with h; subst h; decide
        · split at h
          · injection h with h; subst h; decide
          · cases h

theorem mem_altBlks {lead : Str} {xs : List Str} {b : Blk} (h : b ∈ altBlks lead xs) :
    b = .text lead ∨ b = .text (str% ", ") ∨ b = .text (str% ", and ") ∨ ∃ a ∈ xs, b = .hole kPrefix a := by
  induction xs generalizing lead with
  | nil => cases h
  | cons a xs ih =>
    match xs with
    | [] =>
      simp only [altBlks, List.mem_cons, List.not_mem_nil, or_false] at h
      rcases h with rfl | rfl
      · exact .inl rfl
      · exact .inr (.inr (.inr ⟨a, by simp, rfl⟩))
    | [b] =>
      simp only [altBlks, List.mem_cons, List.not_mem_nil, or_false] at h
      rcases h with rfl | rfl | rfl | rfl
      · exact .inl rfl
      · exact .inr (.inr (.inr ⟨a, by simp, rfl⟩))
      · exact .inr (.inr (.inl rfl))
      · exact .inr (.inr (.inr ⟨b, by simp, rfl⟩))
    | b :: c :: xs =>
      simp only [altBlks, List.mem_cons] at h
      rcases h with rfl | rfl | h
      · exact .inl rfl
      · exact .inr (.inr (.inr ⟨a, by simp, rfl⟩))
      · rcases ih h with h | h | h | ⟨a', ha', h⟩
        · exact .inr (.inl h)
        · exact .inr (.inl h)
        · exact .inr (.inr (.inl h))
        · exact .inr (.inr (.inr ⟨a', by simp [ha'], h⟩))

theorem length_altBlks (lead : Str) (xs : List Str) : (altBlks lead xs).length = 2 * xs.length := by
  induction xs generalizing lead with
  | nil => rfl
  | cons a xs ih =>
    match xs with
    | [] => rfl
    | [b] => rfl
    | b :: c :: xs =>
      simp only [altBlks, List.length_cons, ih]
      omega

theorem not_in_cat {k : Str} (hq : '\'' ∉ k) (last : Str) (hl : '%' ∉ last) (bs : List Blk)
    (h : ∀ b ∈ bs, ¬ placeholder k <:+: b.render) : ¬ placeholder k <:+: catBlks last bs := by
  have hq' : '\'' ∉ placeholder k := by simp [placeholder, hq]
  induction bs with
  | nil => exact placeholder_noPercent hl
  | cons b bs ih =>
    rw [← findSub_eq_none, catBlks, findSub_append (placeholder_ne k) hq', findSub_eq_none.2 (h b (by simp))]
    simp only [Option.map_eq_none_iff]
    exact findSub_eq_none.2 (ih fun b hb => h b (by simp [hb]))

theorem altBlks_filled (pre lead : Str) (g : Blk → Str) (hg : ∀ a, g (.hole kPrefix a) = pre ++ a) (ht : ∀ s, g (.text s) = s)
    (xs : List Str) (h : xs ≠ []) :
    catBlks [] ((altBlks lead xs).map fun b => .text (g b)) = lead ++ alternativesText pre xs := by
  induction xs generalizing lead with
  | nil => exact absurd rfl h
  | cons a xs ih =>
    match xs with
    | [] => simp [altBlks, catBlks, Blk.render, hg, ht, alternativesText]
    | [b] => simp [altBlks, catBlks, Blk.render, hg, ht, alternativesText]
    | b :: c :: xs =>
      simp only [altBlks, List.map_cons, catBlks, Blk.render, hg, ht, alternativesText]
      rw [ih (str% ", ") (by simp)]
      simp

theorem distinct_sorted (alts : List Str) : SSet.Sorted (distinct alts) := SSet.sorted_insertAll (by simp [SSet.Sorted]) alts
theorem mem_distinct (alts : List Str) (a : Str) : a ∈ distinct alts ↔ a ∈ alts := by
  rw [distinct, SSet.mem_insertAll]; simp

theorem what_ambiguous (e : OptErr) (alts : List Str) (hc : e.cls = .ambiguousOption alts) (n t name pre : Str)
    (hs : e.subst = shape none n t none) (hn : e.canonicalName = some name) (hp : e.canonicalPrefix = some pre)
    (hst : e.style ≠ Style.allowDashForShort ∧ e.style ≠ Style.allowSlashForShort)
    (hne : alts ≠ []) (h0 : name ≠ []) (cn : Clean name) (ca : ∀ a ∈ alts, '%' ∉ a) (f : Nat)
    (hf : 2 + 2 * (distinct alts).length ≤ f) :
    e.what f = some (str% "option '" ++ name ++ str% "' is ambiguous and matches " ++ versionsText alts ++
      alternativesText pre (distinct alts)) := by
  have hd : distinct alts ≠ [] := by
    intro h0
    obtain ⟨a, as, rfl⟩ := List.exists_cons_of_ne_nil hne
    have := (mem_distinct (a :: as) a).2 (by simp)
    rw [h0] at this; cases this
  have cd : ∀ a ∈ distinct alts, '%' ∉ a := fun a ha => ca a ((mem_distinct alts a).1 ha)
  have hpre := prefix_noPercent hp
  have hver : '%' ∉ versionsText alts := by unfold versionsText; split <;> simp
  have hT : e.what f = e.substitute f (catBlks [] (.text (str% "option ") :: .hole kCanon [] ::
      altBlks (str% " is ambiguous and matches " ++ versionsText alts) (distinct alts))) := by
    unfold OptErr.what
    rw [hc]
    simp only
    rw [if_neg (by simp [hst]), ambiguousTemplate_eq alts hne]
    simp only
    congr 1
    simp only [catBlks]
    rw [altBlks_lead (str% " is ambiguous and matches " ++ versionsText alts) _ hd]
    simp [ErrClass.template, Blk.render, placeholder, kCanon]
  rw [hT]
  generalize hlead : (str% " is ambiguous and matches ") ++ versionsText alts = lead
  have hleadp : '%' ∉ lead := by subst hlead; simp [hver]
  generalize hbs : (Blk.text (str% "option ") :: .hole kCanon [] :: altBlks lead (distinct alts)) = bs
  have hlen : bs.length = 2 + 2 * (distinct alts).length := by
    subst hbs; simp only [List.length_cons, length_altBlks]; omega
  have hmem : ∀ b ∈ bs, (∃ s, b = .text s ∧ '%' ∉ s) ∨ b = .hole kCanon [] ∨ ∃ a, '%' ∉ a ∧ b = .hole kPrefix a := by
    intro b hb
    subst hbs
    simp only [List.mem_cons] at hb
    rcases hb with rfl | rfl | hb
    · exact .inl ⟨_, rfl, by simp⟩
    · exact .inr (.inl rfl)
    · rcases mem_altBlks hb with rfl | rfl | rfl | ⟨a, ha, rfl⟩
      · exact .inl ⟨_, rfl, hleadp⟩
      · exact .inl ⟨_, rfl, by simp⟩
      · exact .inl ⟨_, rfl, by simp⟩
      · exact .inr (.inr ⟨a, cd a ha, rfl⟩)
  have htext : ∀ (ss : SMap Str) (s : Str), '%' ∉ s → (Blk.text s).Fillable ss :=
    fun ss s hs => fillable_text fun p _ => placeholder_noPercent hs
  unfold OptErr.substitute
  rw [hn, hp]
  simp only
  rw [hs, fullShape_eq]
  have hfill : ∀ b ∈ bs, b.Fillable (fullShape name pre none n t none) := by
    intro b hb
    rcases hmem b hb with ⟨s, rfl, hs⟩ | rfl | ⟨a, ha, rfl⟩
    · exact htext _ s hs
    · exact fill_canon cn _ _ _ _ _
    · refine fillable_hole (ss := [(kCanon, name), (kOption, n), (kToken, t)]) (tt := []) ?_ (placeholder_noPercent (by simp [hpre, ha])) (by simp)
      intro p hp
      have : p.1 ≠ kPrefix ∧ '%' ∉ p.1 := by
        simp only [List.mem_cons, List.not_mem_nil, or_false] at hp
        rcases hp with rfl | rfl | rfl <;> (refine ⟨?_, ?_⟩ <;> dsimp only <;> decide)
      exact ⟨this.1, fun h => this.1 (placeholder_in_hole (by decide) this.2 ha h)⟩
  have hnv : ∀ (bs' : List Blk), (∀ b ∈ bs', ¬ placeholder kValue <:+: b.render) →
      replaceToken f (catBlks [] bs') (str% "argument ('%value%')") (str% "argument") = some (catBlks [] bs') := by
    intro bs' h
    refine replaceToken_none fun hi => not_in_cat (k := kValue) (by decide) [] (by simp) bs' h ?_
    refine List.IsInfix.trans ?_ hi
    exact ⟨str% "argument ('", str% "')", by decide⟩
  have hrender : ∀ b ∈ bs, ¬ placeholder kValue <:+: b.render := by
    intro b hb
    rcases hmem b hb with ⟨s, rfl, hs⟩ | rfl | ⟨a, ha, rfl⟩
    · exact placeholder_noPercent hs
    · exact not_infix_dec (by decide)
    · exact fun h => absurd (placeholder_in_hole (by decide) (by decide) ha h) (by decide)
  obtain ⟨g1, g2, _, g4⟩ := get_full name pre none n t none
  have final : ∀ (bs' : List Blk), bs'.length ≤ f → (∀ b ∈ bs', b.Fillable (fullShape name pre none n t none)) →
      bs'.map (fun b => Blk.text (b.fill (fullShape name pre none n t none))) =
        bs.map (fun b => Blk.text (b.fill (fullShape name pre none n t none))) →
      applySubsts f (fullShape name pre none n t none) (catBlks [] bs') =
        some (str% "option '" ++ name ++ str% "' is ambiguous and matches " ++ versionsText alts ++
          alternativesText pre (distinct alts)) := by
    intro bs' h1 h2 h3
    rw [applySubsts_blocks f _ (fun p hp => key_noQuote (mem_fullShape hp)) [] (by simp) bs' h1 h2, h3]
    subst hbs
    have hf := altBlks_filled pre lead (Blk.fill (fullShape name pre none n t none)) (fun a => by simp only [Blk.fill, g2]) (fun s => rfl)
      (distinct alts) hd
    rw [List.map_cons, List.map_cons, catBlks, catBlks, hf]
    subst hlead
    simp [Blk.render, Blk.fill, g1]
  unfold substDefaults
  rw [applyDefaults, show (str% "canonical_option") = kCanon from rfl, g1, if_neg h0, applyDefaults,
    show (str% "prefix") = kPrefix from rfl, g2]
  by_cases hpe : pre = []
  · rw [if_pos hpe]
    have hfp : ∀ b ∈ bs, b.Fillable [(kPrefix, []), (kCanon, [])] := by
      intro b hb
      rcases hmem b hb with ⟨s, rfl, hs⟩ | rfl | ⟨a, ha, rfl⟩
      · exact htext _ s hs
      · refine fillable_hole (ss := [(kPrefix, [])]) (tt := []) ?_ (not_infix_dec (by decide)) (by simp)
        intro p hp
        simp only [List.mem_cons, List.not_mem_nil, or_false] at hp
        subst hp
        exact ⟨by decide, not_infix_dec (by decide)⟩
      · exact fillable_hole (ss := []) (by simp) (placeholder_noPercent (by simp [ha])) (fun _ _ => placeholder_noPercent (by simp [ha]))
    have hr := replaceToken_mono (f - bs.length) (replaceToken_blocks (k := kPrefix) (v := []) (by decide) [] (by simp) bs hfp)
    rw [Nat.add_sub_cancel' (by omega)] at hr
    rw [show (str% "%prefix%") = placeholder kPrefix from rfl, hr]
    simp only
    rw [applyDefaults, show (str% "value") = kValue from rfl, g4, Option.getD_none, if_pos rfl, hnv]
    · simp only [applyDefaults]
      refine final _ (by simp; omega) ?_ ?_
      · intro b hb
        obtain ⟨b0, hb0, rfl⟩ := List.mem_map.1 hb
        rcases hmem b0 hb0 with ⟨s, rfl, hs⟩ | rfl | ⟨a, ha, rfl⟩
        · exact htext _ s hs
        · exact fill_canon cn _ _ _ _ _
        · exact htext _ _ (by simp [ha])
      · rw [List.map_map]
        apply List.map_congr_left
        intro b hb
        simp only [Function.comp]
        rcases hmem b hb with ⟨s, rfl, hs⟩ | rfl | ⟨a, ha, rfl⟩
        · rfl
        · rfl
        · show Blk.text ([] ++ a) = Blk.text ((SMap.get? (fullShape name pre none n t none) kPrefix).getD [] ++ a)
          rw [g2, hpe]
    · intro b hb
      obtain ⟨b0, hb0, rfl⟩ := List.mem_map.1 hb
      rcases hmem b0 hb0 with ⟨s, rfl, hs⟩ | rfl | ⟨a, ha, rfl⟩
      · exact placeholder_noPercent hs
      · exact not_infix_dec (by decide)
      · exact placeholder_noPercent (by simpa [Blk.step, Blk.render] using ha)
  · rw [if_neg hpe, applyDefaults, show (str% "value") = kValue from rfl, g4, Option.getD_none, if_pos rfl, hnv _ hrender]
    simp only [applyDefaults]
    exact final bs (by omega) hfill rfl


/-! ### C47 -/

/-- The `option_style` codes the library passes to its exceptions: none, `allow_long`,
`allow_dash_for_short`, `allow_slash_for_short`, `allow_long_disguise`. -/
def KnownStyle (s : Nat) : Prop := s = 0 ∨ s = 1 ∨ s = 4 ∨ s = 8 ∨ s = 4096

/-- `what()` returns. -/
def Returns (e : OptErr) : Prop := ∃ f msg, e.what f = some msg

/-- Texts the user typed that go into the message: the token, the value and the line. -/
def typed (e : OptErr) : List Str :=
  [e.substD (str% "original_token"), e.substD (str% "value"), e.substD (str% "invalid_line")]

/-- The full claim. -/
def C47_claim : Prop := ∀ e : OptErr, Built e → KnownStyle e.style → Returns e

theorem prefix_of_known {e : OptErr} (h : KnownStyle e.style) : ∃ pre, e.canonicalPrefix = some pre ∧ '%' ∉ pre := by
  rcases h with h | h | h | h | h <;>
    exact ⟨_, by simp only [OptErr.canonicalPrefix, h]; rfl, by decide⟩

theorem name_of_prefix {e : OptErr} {pre : Str} (h : e.canonicalPrefix = some pre) : ∃ name, e.canonicalName = some name := by
  unfold OptErr.canonicalName
  rw [h]
  split
  · exact ⟨_, rfl⟩
  · dsimp only
    split
    · exact ⟨_, rfl⟩
    · split
      · split
        · exact ⟨_, rfl⟩
        · exact ⟨_, rfl⟩
      · exact ⟨_, rfl⟩

theorem applySubsts_none {f : Nat} {ss tt : SMap Str} {k v msg : Str} (hs : ∀ p ∈ ss, ∀ m, placeholder k <:+: m →
      ∀ m', replaceToken f m (placeholder p.1) p.2 = some m' → placeholder k <:+: m')
    (hm : placeholder k <:+: msg) (hv : placeholder k <:+: v) : applySubsts f (ss ++ (k, v) :: tt) msg = none := by
  induction ss generalizing msg with
  | nil =>
    rw [List.nil_append, applySubsts]
    rw [show '%' :: k ++ ['%'] = placeholder k from rfl, replaceToken_diverges f _ _ _ hm hv]
  | cons p ss ih =>
    obtain ⟨k', v'⟩ := p
    rw [List.cons_append, applySubsts]
    rw [show '%' :: k' ++ ['%'] = placeholder k' from rfl]
    cases h : replaceToken f msg (placeholder k') v' with
    | none => rfl
    | some m' => exact ih (fun p hp => hs p (by simp [hp])) (hs (k', v') (by simp) msg hm m' h)

/-- **C47 is false in the code.** Typing an unknown option `--x%canonical_option%` makes the parser
throw an exception whose `what()` never returns: the replacement text contains the placeholder
being replaced. -/
theorem C47_hangs (tok : Str) (h : placeholder kCanon <:+: tok) (f : Nat) (style : Nat) :
    ((OptErr.mk' .unknownOption).addContext [] tok style).what f = none := by
  have h0 : tok ≠ [] := by
    rintro rfl
    simp [placeholder] at h
  have hn : ((OptErr.mk' .unknownOption).addContext [] tok style).canonicalName = some tok := rfl
  unfold OptErr.what
  simp only [OptErr.addContext, ErrClass.noOptionName, OptErr.mk', if_true, OptErr.setSubst]
  unfold OptErr.substitute
  have hn' : ({ cls := .unknownOption, style := style, subst := shape none [] tok none } : OptErr).canonicalName = some tok := rfl
  have hsub : SMap.set (SMap.set (SMap.set [] (str% "option") []) (str% "original_token") []) (str% "original_token") tok = shape none [] tok none := rfl
  rw [hsub]
  simp only [hn']
  cases hp : ({ cls := .unknownOption, style := style, subst := shape none [] tok none } : OptErr).canonicalPrefix with
  | none => rfl
  | some pre =>
    simp only
    rw [fullShape_eq]
    have hd : ∀ g, applyDefaults g (fullShape tok pre none [] tok none) substDefaults ErrClass.unknownOption.template =
        some ErrClass.unknownOption.template := by
      intro g
      obtain ⟨g1, g2, _, g4⟩ := get_full tok pre none [] tok none
      have n1 : findSub (ErrClass.template .unknownOption) (str% "%prefix%") = none := by decide
      have n2 : findSub (ErrClass.template .unknownOption) (str% "argument ('%value%')") = none := by decide
      unfold substDefaults
      rw [applyDefaults, show (str% "canonical_option") = kCanon from rfl, g1, if_neg h0, applyDefaults,
        replaceToken_none (findSub_eq_none.1 n1)]
      simp only
      rw [applyDefaults, replaceToken_none (findSub_eq_none.1 n2)]
      simp [applyDefaults]
    rw [hd]
    simp only
    exact applySubsts_none (ss := []) (by simp) ⟨str% "unrecognised option '", str% "'", rfl⟩ h

theorem C47_negation : ¬ C47_claim := by
  intro h
  obtain ⟨f, msg, hm⟩ := h ((OptErr.mk' .unknownOption).addContext [] (Test.L "--x%canonical_option%") 1)
    (.context _ _ _ _ (.mk _ _ _ _)) (.inr (.inl rfl))
  rw [C47_hangs (Test.L "--x%canonical_option%") ⟨Test.L "--x", [], rfl⟩] at hm
  cases hm

/-- The exception of `C47_negation` is the one the command line parser throws. -/
theorem C47_reachable : Cmdline.run { desc := [] } [Test.L "--x%canonical_option%"] =
    .error (.opt ((OptErr.mk' .unknownOption).addContext [] (Test.L "--x%canonical_option%") 1)) := by rfl

theorem clean_of_suffix {a b : Str} (h : a <:+ b) (hb : Clean b) : Clean a :=
  fun k hk hi => hb k hk (hi.trans h.isInfix)

theorem clean_cons {c : Char} {s : Str} (hc : c ≠ '%') (h : Clean s) : Clean (c :: s) := by
  intro k hk hi
  rw [List.infix_cons_iff] at hi
  rcases hi with hi | hi
  · unfold placeholder at hi
    rw [List.cons_append, List.cons_prefix_cons] at hi
    exact hc hi.1.symm
  · exact h k hk hi

theorem clean_append {p s : Str} (hp : '%' ∉ p) (h : Clean s) : Clean (p ++ s) := by
  induction p with
  | nil => exact h
  | cons c p ih =>
    rw [List.cons_append]
    exact clean_cons (by rintro rfl; simp at hp) (ih (by simp at hp; exact hp.2))

theorem clean_single (c : Char) : Clean [c] := by
  intro k hk hi
  have := hi.length_le
  simp [placeholder] at this

theorem stripPrefixes_suffix (s : Str) : stripPrefixes s <:+ s := by
  unfold stripPrefixes
  split
  · exact List.suffix_rfl
  · exact List.dropWhile_suffix _

theorem name_clean {e : OptErr} {pre name : Str} (hp : e.canonicalPrefix = some pre) (hn : e.canonicalName = some name)
    (h1 : Clean (e.substD (str% "option"))) (h2 : Clean (e.substD (str% "original_token"))) : Clean name := by
  have hpre := prefix_noPercent hp
  have hname : Clean (stripPrefixes (e.substD (str% "option"))) := clean_of_suffix (stripPrefixes_suffix _) h1
  unfold OptErr.canonicalName at hn
  rw [hp] at hn
  split at hn
  · injection hn with hn; subst hn; exact h2
  · dsimp only at hn
    split at hn
    · simp only [Option.map_some, Option.some.injEq] at hn
      subst hn
      exact clean_append hpre hname
    · split at hn
      · split at hn
        · simp only [Option.map_some, Option.some.injEq] at hn
          subst hn
          exact clean_append hpre (clean_single _)
        · injection hn with hn; subst hn; exact hname
      · injection hn with hn; subst hn; exact hname

theorem substD_shape (e : OptErr) (line : Option Str) (n t : Str) (value : Option Str) (h : e.subst = shape line n t value) :
    e.substD (str% "option") = n ∧ e.substD (str% "original_token") = t ∧ e.substD (str% "value") = value.getD [] ∧
      e.substD (str% "invalid_line") = line.getD [] := by
  unfold OptErr.substD
  rw [h]
  cases line <;> cases value <;> exact ⟨rfl, rfl, rfl, rfl⟩

theorem shape_none {line : Option Str} {n t : Str} {value : Option Str} (hv : SMap.has (shape line n t value) (str% "value") = false)
    (hi : SMap.has (shape line n t value) (str% "invalid_line") = false) : shape line n t value = shape none n t none := by
  cases line with
  | some l =>
    exfalso
    have : SMap.has (shape (some l) n t value) (str% "invalid_line") = true := rfl
    rw [this] at hi; cases hi
  | none =>
    cases value with
    | some v =>
      exfalso
      have : SMap.has (shape none n t (some v)) (str% "value") = true := rfl
      rw [this] at hv; cases hv
    | none => rfl

theorem form_line (c : ErrClass) (h : c.form = .line) : c = .cmdlineSyntax .unrecognizedLine ∨ c = .configSyntax .unrecognizedLine := by
  rcases c with _ | _ | _ | _ | _ | k | k | k <;> (try cases k) <;> first | exact Form.noConfusion h | simp

/-- **C48** (and the termination part of C47) for every exception but `ambiguous_option`: if neither
option name, nor token, nor line contain one of the six placeholders, and the value does not contain
`%value%`, then `what()` returns, and its text is the documented one with name, value and line
verbatim. -/
theorem C48_verbatim_partial (e : OptErr) (hb : Built e) (hk : KnownStyle e.style) (ha : ∀ alts, e.cls ≠ .ambiguousOption alts)
    (hl : e.cls = .cmdlineSyntax .unrecognizedLine ∨ e.cls = .configSyntax .unrecognizedLine → SMap.has e.subst (str% "invalid_line") = true)
    (h1 : Clean (e.substD (str% "option"))) (h2 : Clean (e.substD (str% "original_token")))
    (h3 : ¬ placeholder kValue <:+: e.substD (str% "value")) (h4 : Clean (e.substD (str% "invalid_line"))) :
    ∃ name, e.canonicalName = some name ∧ ∀ f, 5 ≤ f →
      e.what f = some (message name (e.substD (str% "value")) (e.substD (str% "invalid_line")) e.cls) := by
  obtain ⟨pre, hp, _⟩ := prefix_of_known hk
  obtain ⟨name, hn⟩ := name_of_prefix hp
  obtain ⟨line, n, t, value, hs⟩ := built_shape hb
  obtain ⟨s1, s2, s3, s4⟩ := substD_shape e line n t value hs
  refine ⟨name, hn, fun f hf => ?_⟩
  have := substitute_template e e.cls line n t value name pre hs hn hp
    (by
      intro hform hnone
      have hh := hl (form_line _ hform)
      rw [hs, hnone] at hh
      cases value <;> exact absurd hh (by simp [shape, SMap.has, SMap.get?, kOption, kToken, kValue]))
    (name_clean hp hn h1 h2)
    (by intro v hv; rw [s3, hv] at h3; exact h3)
    (by intro l hll; rw [s4, hll] at h4; exact h4) f hf
  rw [s3, s4, ← this]
  unfold OptErr.what
  cases hc : e.cls <;> first | exact absurd hc (ha _) | rfl

/-- **C47, part that holds:** if no option name, token, value, line or alternative contains one of
the placeholders (for alternatives: a `%`), `what()` returns. Missing: texts containing such a
placeholder, see `C47_negation`; also an ambiguous lookup of the empty token. -/
theorem C47_returns_partial (e : OptErr) (hb : Built e) (hk : KnownStyle e.style)
    (hl : e.cls = .cmdlineSyntax .unrecognizedLine ∨ e.cls = .configSyntax .unrecognizedLine → SMap.has e.subst (str% "invalid_line") = true)
    (h1 : Clean (e.substD (str% "option"))) (h2 : Clean (e.substD (str% "original_token")))
    (h3 : Clean (e.substD (str% "value"))) (h4 : Clean (e.substD (str% "invalid_line")))
    (h5 : ∀ alts, e.cls = .ambiguousOption alts → alts ≠ [] ∧ (∀ a ∈ alts, '%' ∉ a) ∧ e.canonicalName ≠ some [] ∧
      SMap.has e.subst (str% "value") = false ∧ SMap.has e.subst (str% "invalid_line") = false) : Returns e := by
  by_cases ha : ∀ alts, e.cls ≠ .ambiguousOption alts
  · obtain ⟨name, _, h⟩ := C48_verbatim_partial e hb hk ha hl h1 h2 (h3 kValue (by simp)) h4
    exact ⟨5, _, h 5 (by omega)⟩
  · obtain ⟨alts, hc⟩ : ∃ alts, e.cls = .ambiguousOption alts := by
      apply Classical.byContradiction
      intro hh
      exact ha fun alts ha => hh ⟨alts, ha⟩
    obtain ⟨hne, hal, hnn, hv, hi⟩ := h5 alts hc
    obtain ⟨pre, hp, _⟩ := prefix_of_known hk
    obtain ⟨name, hn⟩ := name_of_prefix hp
    obtain ⟨line, n, t, value, hs⟩ := built_shape hb
    have hcl := name_clean hp hn h1 h2
    have hs' : e.subst = shape none n t none := by
      rw [hs] at hv hi ⊢
      exact shape_none hv hi
    by_cases hst : e.style = Style.allowDashForShort ∨ e.style = Style.allowSlashForShort
    · refine ⟨5, message name [] [] (.ambiguousOption alts), ?_⟩
      · unfold OptErr.what
        rw [hc]
        simp only
        rw [if_pos hst]
        exact substitute_template e (.ambiguousOption alts) none n t none name pre hs' hn hp (fun h => Form.noConfusion h) hcl
          (by simp) (by simp) 5 (by omega)
    · exact ⟨_, _, what_ambiguous e alts hc n t name pre hs' hn hp (by simpa [not_or] using hst) hne
        (by rintro rfl; exact hnn hn) hcl hal _ (Nat.le_refl _)⟩

example : let e := ((OptErr.mk' .unknownOption).addContext [] (Test.L "--50%") 1)
    Built e ∧ KnownStyle e.style ∧ e.what 5 = some (Test.L "unrecognised option '--50%'") :=
  ⟨.context _ _ _ _ (.mk _ _ _ _), .inr (.inl rfl), by decide⟩

/-! ### C48 -/

theorem clean_nil : Clean [] := by
  intro k hk hi
  simp [placeholder] at hi

/-- **C48, part that holds:** the messages that `invalid_option_value(v)` and `invalid_bool_value(v)` get once the option is known quote
the value and the displayed name verbatim. Missing: names and tokens with one of the placeholders, and values with `%value%`, see
`C48_negation`. -/
theorem C48_invalid_value_partial (v option token name : Str) (style : Nat) (hk : KnownStyle style) (hv : v ≠ []) (h0 : name ≠ []) (h1 : Clean option) (h2 : Clean token)
    (h3 : ¬ placeholder kValue <:+: v) (e : OptErr) (tail : Str)
    (he : errInvalidValue v = .opt e ∧ tail = str% "' is invalid" ∨
      errInvalidBool v = .opt e ∧ tail = str% "' is invalid. Valid choices are 'on|off', 'yes|no', '1|0' and 'true|false'")
    (hn : (e.addContext option token style).canonicalName = some name) :
    ∀ f, 5 ≤ f → (e.addContext option token style).what f = some (str% "the argument ('" ++ v ++ str% "') for option '" ++ name ++ tail) := by
  have main : ∀ (k : ValidKind), (k = .invalidOptionValue ∨ k = .invalidBoolValue) → e = (OptErr.mk' (.validation k)).setSubst (str% "value") v →
      ∀ f, 5 ≤ f → (e.addContext option token style).what f = some (message name v [] (.validation k)) := by
    intro k hkk hee f hf
    subst hee
    have hcls : (((OptErr.mk' (.validation k)).setSubst (str% "value") v).addContext option token style).cls = .validation k := rfl
    have hs : (((OptErr.mk' (.validation k)).setSubst (str% "value") v).addContext option token style).subst = shape none option token (some v) := rfl
    have hst : (((OptErr.mk' (.validation k)).setSubst (str% "value") v).addContext option token style).style = style := rfl
    obtain ⟨s1, s2, s3, s4⟩ := substD_shape _ none option token (some v) hs
    obtain ⟨nm, e1, e2⟩ := C48_verbatim_partial _ (.context _ option token style (.value _ v (.mk (.validation k) [] [] 0))) (by rw [hst]; exact hk)
      (by rw [hcls]; nofun) (by rw [hcls]; rintro (h | h) <;> cases h) (by rw [s1]; exact h1) (by rw [s2]; exact h2) (by rw [s3]; exact h3)
      (by rw [s4]; exact clean_nil)
    rw [hn] at e1
    cases e1
    rw [e2 f hf, s3, s4, hcls]
    rfl
  rcases he with ⟨he, rfl⟩ | ⟨he, rfl⟩
  · have hee : e = (OptErr.mk' (.validation .invalidOptionValue)).setSubst (str% "value") v := by
      unfold errInvalidValue at he; injection he with he; exact he.symm
    intro f hf
    rw [main _ (.inl rfl) hee f hf]
    simp [message, validMessage, argumentText, optionText, hv, h0]
  · have hee : e = (OptErr.mk' (.validation .invalidBoolValue)).setSubst (str% "value") v := by
      unfold errInvalidBool at he; injection he with he; exact he.symm
    intro f hf
    rw [main _ (.inr rfl) hee f hf]
    simp [message, validMessage, argumentText, optionText, hv, h0]

/-- The full claim: the message of an invalid-value error quotes value and displayed name verbatim. -/
def C48_claim : Prop := ∀ (v option token name : Str) (style : Nat), KnownStyle style → v ≠ [] → option ≠ [] →
  ∀ e, errInvalidValue v = .opt e → (e.addContext option token style).canonicalName = some name →
  ∃ f, (e.addContext option token style).what f = some (str% "the argument ('" ++ v ++ str% "') for option '" ++ name ++ str% "' is invalid")

/-- **C48 is false in the code** in general: an option called `a%prefix%b` is displayed as `--a--b`. -/
theorem C48_negation : ¬ C48_claim := by
  intro h
  obtain ⟨f, hf⟩ := h (Test.L "x") (Test.L "a%prefix%b") (Test.L "--a%prefix%b") (Test.L "--a%prefix%b") 1 (.inr (.inl rfl)) (by decide) (by decide) _ rfl (by decide)
  have hw : (((OptErr.mk' (.validation .invalidOptionValue)).setSubst (str% "value") (Test.L "x")).addContext (Test.L "a%prefix%b")
      (Test.L "--a%prefix%b") 1).what 9 = some (Test.L "the argument ('x') for option '--a--b' is invalid") := by decide
  have mono : ∀ (e : OptErr) (f g : Nat) (T m : Str), e.substitute f T = some m → e.substitute (f + g) T = some m := by
    intro e f g T m hm
    unfold OptErr.substitute at hm ⊢
    cases h1 : e.canonicalName with
    | none => simp [h1] at hm
    | some nm =>
      cases h2 : e.canonicalPrefix with
      | none => simp [h1, h2] at hm
      | some pr =>
        simp only [h1, h2] at hm ⊢
        cases h3 : applyDefaults f (SMap.set (SMap.set e.subst (str% "canonical_option") nm) (str% "prefix") pr) substDefaults T with
        | none => simp [h3] at hm
        | some m1 =>
          rw [h3] at hm
          rw [applyDefaults_mono g _ _ _ _ h3]
          simp only at hm ⊢
          generalize SMap.set (SMap.set e.subst (str% "canonical_option") nm) (str% "prefix") pr = ss at hm
          clear h3 h1 h2
          induction ss generalizing m1 with
          | nil => exact hm
          | cons p ss ih =>
            obtain ⟨k, v⟩ := p
            rw [applySubsts] at hm ⊢
            cases hr : replaceToken f m1 ('%' :: k ++ ['%']) v with
            | none => rw [hr] at hm; cases hm
            | some m2 =>
              rw [hr] at hm
              rw [replaceToken_mono g hr]
              exact ih m2 hm
  have key : ∀ g, (((OptErr.mk' (.validation .invalidOptionValue)).setSubst (str% "value") (Test.L "x")).addContext (Test.L "a%prefix%b")
      (Test.L "--a%prefix%b") 1).what g = (((OptErr.mk' (.validation .invalidOptionValue)).setSubst (str% "value") (Test.L "x")).addContext
        (Test.L "a%prefix%b") (Test.L "--a%prefix%b") 1).substitute g ValidKind.invalidOptionValue.template := fun _ => rfl
  rw [key] at hf hw
  have a := mono _ _ 9 ValidKind.invalidOptionValue.template _ hf
  have b := mono _ _ f ValidKind.invalidOptionValue.template _ hw
  rw [Nat.add_comm] at b
  rw [a] at b
  revert b
  decide

example : let e := ((OptErr.mk' (.validation .invalidOptionValue)).setSubst (str% "value") (Test.L "%option% 50%")).addContext (Test.L "num") (Test.L "--num") 1
    e.what 5 = some (Test.L "the argument ('%option% 50%') for option '--num' is invalid") ∧
    (findSub (Test.L "%option% 50%") (placeholder kValue) = none) := by decide

/-! ### C49 -/

/-- **C49.** The message of an `ambiguous_option` error (not of a short-option parse) lists the
distinct alternatives, each once, in increasing order, each with the option prefix. -/
theorem C49_alternatives (e : OptErr) (hb : Built e) (hk : KnownStyle e.style) (alts : List Str) (hc : e.cls = .ambiguousOption alts)
    (hst : e.style ≠ Style.allowDashForShort ∧ e.style ≠ Style.allowSlashForShort) (hne : alts ≠ []) (ha : ∀ a ∈ alts, '%' ∉ a)
    (h1 : Clean (e.substD (str% "option"))) (h2 : Clean (e.substD (str% "original_token")))
    (hv : SMap.has e.subst (str% "value") = false ∧ SMap.has e.subst (str% "invalid_line") = false)
    (hnn : e.canonicalName ≠ some []) :
    ∃ name pre sorted f0, e.canonicalName = some name ∧ e.canonicalPrefix = some pre ∧
      sorted.Pairwise Earlier ∧ (∀ a, a ∈ sorted ↔ a ∈ alts) ∧
      ∀ f, f0 ≤ f → e.what f = some (str% "option '" ++ name ++ str% "' is ambiguous and matches " ++
        (if alts.length > 1 ∧ sorted.length = 1 then str% "different versions of " else []) ++ alternativesText pre sorted) := by
  obtain ⟨pre, hp, _⟩ := prefix_of_known hk
  obtain ⟨name, hn⟩ := name_of_prefix hp
  obtain ⟨line, n, t, value, hs⟩ := built_shape hb
  have hs' : e.subst = shape none n t none := by
    obtain ⟨hv, hi⟩ := hv
    rw [hs] at hv hi ⊢
    exact shape_none hv hi
  refine ⟨name, pre, distinct alts, 2 + 2 * (distinct alts).length, hn, hp, (distinct_sorted alts).imp (strLt_iff _ _).1, mem_distinct alts, fun f hf => ?_⟩
  exact what_ambiguous e alts hc n t name pre hs' hn hp hst hne (by rintro rfl; exact hnn hn) (name_clean hp hn h1 h2) ha f hf

example : let e := (OptErr.mk' (.ambiguousOption [Test.L "fool", Test.L "foot", Test.L "fool"])).addContext [] (Test.L "--foo") 1
    Built e ∧ e.what 10 = some (Test.L "option '--foo' is ambiguous and matches '--fool', and '--foot'") :=
  ⟨.context _ _ _ _ (.mk _ _ _ _), by decide⟩

end PO
