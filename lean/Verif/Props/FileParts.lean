import Verif.Spec.FileParts
import Verif.Props.SharedFile
import Verif.Props.SourceParts
/-
C145: configuration files that are put together from parts.
-/
namespace PO
open Spec SourceParts

namespace FileParts

theorem head_brackets (s : Str) : ('[' :: s ++ [']']).head? = some '[' ∧ ('[' :: s ++ [']']).getLast? = some ']' := ⟨rfl, List.getLast?_concat⟩

theorem line_header_any (it : ConfigIter) (pre s : Str) : it.line pre ('[' :: s ++ [']']) = it.line [] ('[' :: s ++ [']']) := by
  have hne : '[' :: s ++ [']'] ≠ [] := by simp
  unfold ConfigIter.line
  rw [if_neg hne, if_neg hne, if_pos (head_brackets s), if_pos (head_brackets s)]

/-- After a header it does not matter which section was open before. -/
theorem scan_headerFirst (it : ConfigIter) {ls : List Str} (h : HeaderFirst ls) (pre : Str) :
    it.lines pre ls = it.lines [] ls := by
  induction h with
  | none => rfl
  | blank h _ ih =>
    rw [ConfigIter.lines, ConfigIter.lines, (says_iff _ _).1 h]
    exact ih
  | header s h =>
    rw [ConfigIter.lines, ConfigIter.lines, (says_iff _ _).1 h, line_header_any]
    rcases Classical.em (s = []) with rfl | hs
    · rfl
    · rw [line_bracket it [] s hs]

/-- Two lists of lines one after the other. -/
theorem lines_append (it : ConfigIter) (pre : Str) (a b : List Str) :
    it.lines pre (a ++ b) =
      match it.scan pre a with
      | .error f => .error f
      | .ok (os, q) =>
        match it.lines q b with
        | .error f => .error f
        | .ok os' => .ok (os ++ os') := by
  rw [lines_eq_scan, scan_append]
  cases it.scan pre a with
  | error f => rfl
  | ok r =>
    simp only [lines_eq_scan]
    cases it.scan r.2 b <;> rfl

/-- The outcome of reading, from the lines. -/
theorem parse_lines (desc : List OptionDesc) (au : Bool) :
    (∃ f, ∀ text, parseConfigFile text desc au = .error f) ∨
    ∃ it : ConfigIter, ∀ ls last, (∀ l ∈ ls, '\n' ∉ l) → '\n' ∉ last → parseConfigFile (unlines ls ++ last) desc au =
      match it.lines [] (ls ++ [last]) with
      | .error f => .error f
      | .ok os => .ok { desc, options := os } := by
  rcases noShort_cases desc with hne | hs
  · obtain ⟨S, h1, ⟨ho, it, h2, h3, h4⟩ | ⟨⟨s, y, hr⟩, h2⟩⟩ := make_spec desc au hne
    · right
      refine ⟨it, fun ls last hl hlast => ?_⟩
      unfold parseConfigFile
      simp only [h1, h2]
      rw [getlines_unlines _ hl _ hlast, lines_trailing]
      cases it.lines [] (ls ++ [last]) <;> rfl
    · left
      refine ⟨.error (overlapMsg (s ++ ['*']) y), fun text => ?_⟩
      unfold parseConfigFile
      simp only [h1, h2 s y hr]
  · left
    refine ⟨.error abbreviatedMsg, fun text => ?_⟩
    unfold parseConfigFile
    rw [allowedNames_error _ _ hs]

/-- Reading whole lines and then a text that begins with a header. -/
theorem parse_append (desc : List OptionDesc) (au : Bool) (a b : Str) (ha : ∃ ls, WholeLines a ls) (hb : StartsSection b) :
    parseConfigFile (a ++ b) desc au =
      match parseConfigFile a desc au with
      | .error f => .error f
      | .ok pa =>
        match parseConfigFile b desc au with
        | .error f => .error f
        | .ok pb => .ok { desc, options := pa.options ++ pb.options } := by
  obtain ⟨la, rfl, hla⟩ := ha
  obtain ⟨lb, last, rfl, hlb, hlast, hh⟩ := hb
  rcases parse_lines desc au with ⟨f, h⟩ | ⟨it, h⟩
  · simp only [h]
  · have e1 := h la [] hla (by simp)
    have e2 := h lb last hlb hlast
    have e3 := h (la ++ lb) last (by intro l hl; rcases List.mem_append.1 hl with hl | hl; exacts [hla l hl, hlb l hl]) hlast
    unfold unlines at e1 e2 e3
    rw [List.append_nil] at e1
    rw [List.flatMap_append, List.append_assoc] at e3
    rw [e1, e2, e3, List.append_assoc, lines_append, lines_append]
    cases it.scan [] la with
    | error f => rfl
    | ok r =>
      have e4 : it.lines r.2 [[]] = .ok [] := rfl
      simp only [e4, List.append_nil, scan_headerFirst it hh r.2]
      cases it.lines [] (lb ++ [last]) <;> rfl

theorem filePart_starts {t : Str} (h : FilePart t) : StartsSection t := by
  obtain ⟨ls, ⟨rfl, h1⟩, h2⟩ := h
  refine ⟨ls, [], by simp, h1, by simp, ?_⟩
  induction h2 with
  | none => exact .blank ((says_iff _ _).2 rfl) .none
  | blank h _ ih => exact .blank h (ih fun l hl => h1 l (List.mem_cons_of_mem _ hl))
  | header s h => exact .header s h

theorem headerFirst_append {a b : List Str} (ha : HeaderFirst a) (hb : HeaderFirst b) : HeaderFirst (a ++ b) := by
  induction ha with
  | none => exact hb
  | blank h _ ih => exact .blank h ih
  | header s h => exact .header s h

theorem filePart_append {a b : Str} (ha : FilePart a) (hb : FilePart b) : FilePart (a ++ b) := by
  obtain ⟨la, ⟨rfl, h1⟩, h2⟩ := ha
  obtain ⟨lb, ⟨rfl, h3⟩, h4⟩ := hb
  refine ⟨la ++ lb, ⟨by simp, ?_⟩, headerFirst_append h2 h4⟩
  intro l hl
  rcases List.mem_append.1 hl with hl | hl
  exacts [h1 l hl, h3 l hl]

theorem filePart_flatten {ts : List Str} (h : ∀ t ∈ ts, FilePart t) : FilePart ts.flatten := by
  induction ts with
  | nil => exact ⟨[], ⟨rfl, by simp⟩, .none⟩
  | cons t ts ih =>
    rw [List.flatten_cons]
    exact filePart_append (h t (List.mem_cons_self ..)) (ih fun t' ht => h t' (List.mem_cons_of_mem _ ht))

theorem parsed_desc {text : Str} {desc : List OptionDesc} {au : Bool} {p : Parsed} (h : parseConfigFile text desc au = .ok p) : p = { desc, options := p.options } := by
  obtain ⟨-, -, -, -, -, -, -, -, -, rfl⟩ := (C64_accepted _ _ _ _).1 h
  rfl

/-- The options of a text that is read on its own. -/
def optionsOf (desc : List OptionDesc) (au : Bool) (t : Str) : List Opt :=
  match parseConfigFile t desc au with
  | .ok p => p.options
  | .error _ => []

theorem optionsOf_ok {desc : List OptionDesc} {au : Bool} {t : Str} {p : Parsed} (h : parseConfigFile t desc au = .ok p) : optionsOf desc au t = p.options := by
  unfold optionsOf; rw [h]

theorem readEach_iff {desc : List OptionDesc} {au : Bool} {ts : List Str} {ps : List Parsed} :
    ReadEach desc au ts ps ↔ (∀ t ∈ ts, ∃ q, parseConfigFile t desc au = .ok q) ∧ ps = ts.map fun t => { desc, options := optionsOf desc au t } := by
  constructor
  · intro h
    induction h with
    | nil => exact ⟨by simp, rfl⟩
    | cons h _ ih =>
      refine ⟨fun t ht => ?_, ?_⟩
      · rcases List.mem_cons.1 ht with rfl | ht
        · exact ⟨_, h⟩
        · exact ih.1 t ht
      · rw [List.map_cons, ← ih.2, optionsOf_ok h, ← parsed_desc h]
  · rintro ⟨h, rfl⟩
    induction ts with
    | nil => exact .nil
    | cons t ts ih =>
      obtain ⟨q, hq⟩ := h t (List.mem_cons_self ..)
      refine .cons ?_ (ih fun t ht => h t (List.mem_cons_of_mem _ ht))
      dsimp only
      rw [optionsOf_ok hq, ← parsed_desc hq, hq]

theorem whole_append {a b : Str} (ha : ∃ ls, WholeLines a ls) (hb : ∃ ls, WholeLines b ls) : ∃ ls, WholeLines (a ++ b) ls := by
  obtain ⟨la, rfl, h1⟩ := ha
  obtain ⟨lb, rfl, h2⟩ := hb
  refine ⟨la ++ lb, by simp, fun l hl => ?_⟩
  rcases List.mem_append.1 hl with hl | hl
  exacts [h1 l hl, h2 l hl]

theorem append_ok {desc : List OptionDesc} {au : Bool} {a b : Str} (ha : ∃ ls, WholeLines a ls) (hb : StartsSection b) {p : Parsed} :
    parseConfigFile (a ++ b) desc au = .ok p ↔
      ∃ pa pb, parseConfigFile a desc au = .ok pa ∧ parseConfigFile b desc au = .ok pb ∧ p = { desc, options := pa.options ++ pb.options } := by
  rw [parse_append desc au a b ha hb]
  cases parseConfigFile a desc au with
  | error f => simp
  | ok pa =>
    cases parseConfigFile b desc au with
    | error f => simp
    | ok pb => simp [eq_comm]

theorem parts_ok {desc : List OptionDesc} {au : Bool} {a : Str} (ha : ∃ ls, WholeLines a ls) {ts : List Str} (ht : ∀ t ∈ ts, FilePart t) {p : Parsed} :
    parseConfigFile (a ++ ts.flatten) desc au = .ok p ↔
      ∃ pa, parseConfigFile a desc au = .ok pa ∧ (∀ t ∈ ts, ∃ q, parseConfigFile t desc au = .ok q) ∧
        p = { desc, options := pa.options ++ ts.flatMap (optionsOf desc au) } := by
  induction ts generalizing a with
  | nil =>
    rw [List.flatten_nil, List.append_nil]
    constructor
    · intro h; exact ⟨p, h, by simp, by rw [List.flatMap_nil, List.append_nil]; exact parsed_desc h⟩
    · rintro ⟨pa, h, -, rfl⟩
      rw [List.flatMap_nil, List.append_nil, ← parsed_desc h]; exact h
  | cons t ts ih =>
    have hp := ht t (List.mem_cons_self ..)
    have hw : ∃ ls, WholeLines t ls := by obtain ⟨ls, h, -⟩ := hp; exact ⟨ls, h⟩
    rw [List.flatten_cons, ← List.append_assoc, ih (whole_append ha hw) fun t ht' => ht t (List.mem_cons_of_mem _ ht')]
    constructor
    · rintro ⟨pat, h1, h2, rfl⟩
      obtain ⟨pa, pt, h3, h4, rfl⟩ := (append_ok ha (filePart_starts hp)).1 h1
      refine ⟨pa, h3, fun t' ht' => ?_, by rw [List.flatMap_cons, optionsOf_ok h4, List.append_assoc]⟩
      rcases List.mem_cons.1 ht' with rfl | ht'
      exacts [⟨_, h4⟩, h2 t' ht']
    · rintro ⟨pa, h1, h2, rfl⟩
      obtain ⟨pt, h4⟩ := h2 t (List.mem_cons_self ..)
      exact ⟨_, (append_ok ha (filePart_starts hp)).2 ⟨pa, pt, h1, h4, rfl⟩, fun t' ht' => h2 t' (List.mem_cons_of_mem _ ht'),
        by rw [List.flatMap_cons, optionsOf_ok h4, List.append_assoc]⟩

/-- Of lists of which at most one is not empty the order does not matter. -/
theorem flatten_perm {α : Type} {ls ls' : List (List α)} (hp : ls.Perm ls') (h : ls.Pairwise fun a b => a = [] ∨ b = []) : ls.flatten = ls'.flatten := by
  induction hp with
  | nil => rfl
  | cons x _ ih => rw [List.flatten_cons, List.flatten_cons, ih (List.pairwise_cons.1 h).2]
  | swap x y l =>
    simp only [List.flatten_cons]
    rcases (List.pairwise_cons.1 h).1 x (List.mem_cons_self ..) with rfl | rfl <;> simp
  | trans hp _ ih1 ih2 => exact (ih1 h).trans (ih2 (hp.pairwise h (fun h => h.symm)))

theorem occurrences_flatMap {α : Type} (f : α → List Opt) (ts : List α) (name : Str) :
    occurrences (ts.flatMap f) name = (ts.map fun t => occurrences (f t) name).flatten := by
  induction ts with
  | nil => rfl
  | cons t ts ih => rw [List.flatMap_cons, occurrences_append, ih]; rfl

theorem occurrences_entry {desc : List OptionDesc} {au : Bool} {t : Str} {name : Str} (h : occurrences (optionsOf desc au t) name ≠ []) :
    ∃ es, FileEntries t es ∧ ∃ e ∈ es, e.1 = name := by
  rw [← mentions_iff] at h
  obtain ⟨o, ho, rfl, -, -⟩ := h
  unfold optionsOf at ho
  cases hp : parseConfigFile t desc au with
  | error f => rw [hp] at ho; cases ho
  | ok p =>
    rw [hp] at ho
    obtain ⟨-, es, os, h1, h2, rfl, -⟩ := (C123_read _ _ _ _).1 hp
    exact ⟨es, h1, _, ((SharedFile.marked_mem h2).1 o ho).1, rfl⟩

theorem parts_apart {desc : List OptionDesc} {au : Bool} {a b : Str} (h : NoCommonName a b) (name : Str) :
    occurrences (optionsOf desc au a) name = [] ∨ occurrences (optionsOf desc au b) name = [] := by
  rcases Classical.em (occurrences (optionsOf desc au a) name = []) with ha | ha
  · exact .inl ha
  · refine .inr (Classical.byContradiction fun hb => ?_)
    obtain ⟨es, h1, e, he, hn⟩ := occurrences_entry ha
    obtain ⟨es', h2, e', he', hn'⟩ := occurrences_entry hb
    exact h es es' h1 h2 e he e' he' (hn.trans hn'.symm)

/-- Lines that differ in the section only. -/
theorem inFull_lines (it : ConfigIter) {s : Str} {ls ls' : List Str} (h : InFull s ls ls') (rest : List Str) (hr : HeaderFirst rest) :
    it.lines (sectionPrefix s) (ls ++ rest) = it.lines [] (ls' ++ rest) := by
  induction h with
  | nil => exact scan_headerFirst it hr _
  | blank h h' _ ih =>
    rw [List.cons_append, List.cons_append, ConfigIter.lines, ConfigIter.lines, (says_iff _ _).1 h, (says_iff _ _).1 h']
    exact ih
  | item n v h hi h' hi' _ ih =>
    rw [List.cons_append, List.cons_append, ConfigIter.lines, ConfigIter.lines, (says_iff _ _).1 h, (says_iff _ _).1 h',
      line_configItem it _ hi, line_configItem it _ hi', List.nil_append, ih]
    by_cases hc : it.allowed (sectionPrefix s ++ n) = false ∧ it.allowUnregistered = false
    · rw [if_pos hc]
    · rw [if_neg hc]

/-- Lines without a header stay in their section. -/
theorem scan_headless (it : ConfigIter) {ls : List Str} (h : Headless ls) {pre q : Str} {os : List Opt} (hs : it.scan pre ls = .ok (os, q)) : q = pre := by
  induction ls generalizing pre os with
  | nil => cases hs; rfl
  | cons l ls ih =>
    have ih' := fun pre os => ih (fun l' hl' => h l' (List.mem_cons_of_mem _ hl')) (pre := pre) (os := os)
    rw [ConfigIter.scan] at hs
    rcases line_kinds (stripLine l) with h0 | ⟨m, hm⟩ | ⟨n, v, hi⟩ | ⟨h0, h1, h2⟩
    · rw [h0] at hs; exact ih' _ _ hs
    · exact absurd ((says_iff _ _).2 hm) (h l (List.mem_cons_self ..) m)
    · rw [line_configItem it _ hi] at hs
      by_cases hc : it.allowed (pre ++ n) = false ∧ it.allowUnregistered = false
      · rw [if_pos hc] at hs; cases hs
      · rw [if_neg hc] at hs
        cases hsc : it.scan pre ls with
        | error f => rw [hsc] at hs; cases hs
        | ok r => rw [hsc] at hs; cases hs; exact ih' _ _ hsc
    · rw [line_neither it _ h0 h1 h2] at hs; cases hs

theorem says_chars {l x : Str} (h : Says l x) : ∀ c ∈ x, c ∈ l ∧ c ≠ '#' := by
  obtain ⟨t, com, rfl, ht, -, a, b, rfl, -, -, -⟩ := h
  intro c hc
  have hm : c ∈ a ++ x ++ b := by simp [hc]
  exact ⟨List.mem_append_left _ hm, fun e => ht (e ▸ hm)⟩

theorem item_chars {x n v : Str} (h : ConfigItem x n v) : (∀ c ∈ n, c ∈ x ∧ c ≠ '=') ∧ (∀ c ∈ v, c ∈ x) ∧ Trimmed n ∧ Trimmed v := by
  obtain ⟨a, b, rfl, he, ⟨a1, a2, rfl, -, -, ha⟩, ⟨b1, b2, rfl, -, -, hb⟩⟩ := h.split
  refine ⟨fun c hc => ⟨by simp [hc], fun e => he (e ▸ by simp [hc])⟩, fun c hc => by simp [hc], ha, hb⟩

theorem prefix_mem {s : Str} {c : Char} (h : c ∈ sectionPrefix s) : c ∈ s ∨ c = '.' := by
  unfold sectionPrefix at h
  split at h
  · exact .inl h
  · simpa using h

theorem prefix_head {s : Str} (hs : s ≠ []) (n : Str) : (sectionPrefix s ++ n).head? = s.head? := by
  unfold sectionPrefix
  cases s with
  | nil => exact absurd rfl hs
  | cons c s => split <;> rfl

theorem prefix_last {s : Str} (n : Str) {c : Char} (h : (sectionPrefix s ++ n).getLast? = some c) : n.getLast? = some c ∨ c = '.' := by
  cases n with
  | nil =>
    right
    rw [List.append_nil] at h
    unfold sectionPrefix at h
    split at h
    · rename_i hd; rw [hd] at h; exact (Option.some.inj h).symm
    · rw [List.getLast?_concat] at h; exact (Option.some.inj h).symm
  | cons x n =>
    left
    rwa [List.getLast?_append_of_ne_nil _ (by simp)] at h

end FileParts
open FileParts

/-- **C145.** Whole lines followed by a text that begins with a section header are read exactly if both can be read on their own; the options are those of the
one and then those of the other. -/
theorem C145_joined (desc : List OptionDesc) (au : Bool) (a b : Str) (ha : ∃ ls, WholeLines a ls) (hb : StartsSection b) (p : Parsed) :
    parseConfigFile (a ++ b) desc au = .ok p ↔
      ∃ pa pb, parseConfigFile a desc au = .ok pa ∧ parseConfigFile b desc au = .ok pb ∧ p = { desc, options := pa.options ++ pb.options } :=
  append_ok ha hb

/-- They are refused like the first one that is refused. -/
theorem C145_refused (desc : List OptionDesc) (au : Bool) (a b : Str) (ha : ∃ ls, WholeLines a ls) (hb : StartsSection b) (f : Fail) :
    parseConfigFile (a ++ b) desc au = .error f ↔
      parseConfigFile a desc au = .error f ∨ (∃ pa, parseConfigFile a desc au = .ok pa) ∧ parseConfigFile b desc au = .error f := by
  rw [parse_append desc au a b ha hb]
  cases parseConfigFile a desc au with
  | error f => simp
  | ok pa => cases parseConfigFile b desc au <;> simp

/-- Any number of parts. -/
theorem C145_parts (desc : List OptionDesc) (au : Bool) (a : Str) (ha : ∃ ls, WholeLines a ls) (ts : List Str) (ht : ∀ t ∈ ts, FilePart t) (p : Parsed) :
    parseConfigFile (a ++ ts.flatten) desc au = .ok p ↔
      ∃ pa ps, parseConfigFile a desc au = .ok pa ∧ ReadEach desc au ts ps ∧ p = { desc, options := pa.options ++ ps.flatMap (·.options) } := by
  rw [parts_ok ha ht]
  constructor
  · rintro ⟨pa, h1, h2, rfl⟩
    exact ⟨pa, _, h1, readEach_iff.2 ⟨h2, rfl⟩, by rw [List.flatMap_map]⟩
  · rintro ⟨pa, ps, h1, h2, rfl⟩
    obtain ⟨h3, rfl⟩ := readEach_iff.1 h2
    exact ⟨pa, h1, h3, by rw [List.flatMap_map]⟩

/-- **C145, order.** Parts of which no two set the same name may be put in any order: the file is read just as well, and storing it has the same effect. -/
theorem C145_order (desc : List OptionDesc) (au : Bool) (a : Str) (ha : ∃ ls, WholeLines a ls) (ts ts' : List Str) (hp : ts.Perm ts')
    (ht : ∀ t ∈ ts, FilePart t) (hn : ts.Pairwise NoCommonName) (p : Parsed) (h : parseConfigFile (a ++ ts.flatten) desc au = .ok p) :
    ∃ p', parseConfigFile (a ++ ts'.flatten) desc au = .ok p' ∧
      ∀ (xm : VarMap), xm.Ordered → ∀ (u : Bool) (m : VarMap), store p xm u = (m, none) ↔ store p' xm u = (m, none) := by
  obtain ⟨pa, h1, h2, rfl⟩ := (parts_ok ha ht).1 h
  refine ⟨_, (parts_ok ha fun t htt => ht t (hp.mem_iff.2 htt)).2 ⟨pa, h1, fun t htt => h2 t (hp.mem_iff.2 htt), rfl⟩, fun xm hx u m => ?_⟩
  refine C66_order_irrelevant { desc, options := pa.options ++ ts.flatMap (optionsOf desc au) } { desc, options := pa.options ++ ts'.flatMap (optionsOf desc au) }
    rfl rfl (fun name => ?_) xm hx u m
  dsimp only
  rw [occurrences_append, occurrences_append, occurrences_flatMap, occurrences_flatMap]
  congr 1
  refine (flatten_perm (hp.map _) ?_).symm
  rw [List.pairwise_map]
  exact hn.imp fun hab => parts_apart hab name

/-- **C145, one file or two.** If every name that both parts set belongs to a composing option, then storing the parts one after the other is storing the joined file,
whatever sources are stored before and after. -/
theorem C145_one_or_two (desc : List OptionDesc) (au : Bool) (a b : Str) (ha : ∃ ls, WholeLines a ls) (hb : StartsSection b) (p pa pb : Parsed)
    (h : parseConfigFile (a ++ b) desc au = .ok p) (h1 : parseConfigFile a desc au = .ok pa) (h2 : parseConfigFile b desc au = .ok pb)
    (hc : ∀ name d, Mentions pa.options name → Mentions pb.options name → candidates desc name = [d] → d.semantic.isComposing = true) (u : Bool)
    (before after : List (Parsed × Bool)) :
    ((∃ m, Stores {} (before ++ (p, u) :: after) m) ↔ ∃ m, Stores {} (before ++ (pa, u) :: (pb, u) :: after) m) ∧
    ∀ m m', Stores {} (before ++ (p, u) :: after) m → Stores {} (before ++ (pa, u) :: (pb, u) :: after) m' → ∀ n, m.map.get? n = m'.map.get? n := by
  obtain ⟨pa', pb', e1, e2, rfl⟩ := (append_ok ha hb).1 h
  rw [h1] at e1; cases e1
  rw [h2] at e2; cases e2
  have d1 : pa.desc = desc := by rw [parsed_desc h1]
  have d2 : pb.desc = desc := by rw [parsed_desc h2]
  exact C104_one_or_two pa pb _ (by rw [d2, d1]) (by rw [d1]) (both_append _ _) (by rw [d1]; exact hc) u before after

/-- **C145, names in full.** A section may be written without its header, each name with the prefix of the section; whatever comes after it, as long as it begins
with a header, means the same. -/
theorem C145_in_full (desc : List OptionDesc) (au : Bool) (s : Str) (hs : s ≠ []) (l : Str) (hl : Says l ('[' :: s ++ [']'])) (ls ls' : List Str)
    (hf : InFull s ls ls') (hn : ∀ x ∈ l :: ls ++ ls', '\n' ∉ x) (b : Str) (hb : StartsSection b) :
    parseConfigFile ((l :: ls).flatMap (· ++ ['\n']) ++ b) desc au = parseConfigFile (ls'.flatMap (· ++ ['\n']) ++ b) desc au := by
  obtain ⟨lb, last, rfl, hlb, hlast, hh⟩ := hb
  rcases parse_lines desc au with ⟨f, h⟩ | ⟨it, h⟩
  · rw [h, h]
  · have e1 := h (l :: ls ++ lb) last (fun x hx => by
      rcases List.mem_append.1 hx with hx | hx
      exacts [hn x (List.mem_append_left _ hx), hlb x hx]) hlast
    have e2 := h (ls' ++ lb) last (fun x hx => by
      rcases List.mem_append.1 hx with hx | hx
      exacts [hn x (List.mem_append_right _ hx), hlb x hx]) hlast
    unfold unlines at e1 e2
    rw [List.flatMap_append, List.append_assoc] at e1 e2
    rw [e1, e2, List.append_assoc, List.append_assoc, ← inFull_lines it hf _ hh, List.cons_append, ConfigIter.lines, (says_iff _ _).1 hl, line_bracket it _ _ hs]

/-- The lines of a section can be written so if its name has no equals sign and begins neither with white space nor with a bracket. -/
theorem C145_writable (s : Str) (hs : s ≠ []) (he : '=' ∉ s) (hw : ∀ c, s.head? = some c → ¬ WhiteSpace c ∧ c ≠ '[') (l : Str)
    (hl : Says l ('[' :: s ++ [']'])) (ls : List Str) (hn : ∀ x ∈ l :: ls, '\n' ∉ x) (hh : Headless ls) (es : List (Str × Str))
    (hg : Entries (sectionPrefix s) ls es) : ∃ ls', InFull s ls ls' ∧ ∀ x ∈ ls', '\n' ∉ x := by
  have hx := says_chars hl
  have hs1 : ∀ c ∈ sectionPrefix s, c ≠ '#' ∧ c ≠ '\n' ∧ c ≠ '=' := by
    intro c hc
    rcases prefix_mem hc with hc | rfl
    · obtain ⟨h1, h2⟩ := hx c (by simp [hc])
      exact ⟨h2, fun e => hn l (List.mem_cons_self ..) (e ▸ h1), fun e => he (e ▸ hc)⟩
    · decide
  have hn' : ∀ x ∈ ls, '\n' ∉ x := fun x hx => hn x (List.mem_cons_of_mem _ hx)
  clear hn
  generalize hq : sectionPrefix s = q at hg
  induction hg with
  | nil => exact ⟨[], .nil, by simp⟩
  | @blank pre l ls es h _ ih =>
    obtain ⟨ls', h1, h2⟩ := ih (fun x hx => hh x (List.mem_cons_of_mem _ hx)) (fun x hx => hn' x (List.mem_cons_of_mem _ hx)) hq
    exact ⟨[] :: ls', .blank h ((says_iff _ _).2 rfl) h1, fun x hx => by rcases List.mem_cons.1 hx with rfl | hx; exacts [by simp, h2 x hx]⟩
  | header s' h _ _ _ => exact absurd h (hh _ (List.mem_cons_self ..) s')
  | @item pre l ls es x n v h hi _ ih =>
    obtain ⟨ls', h1, h2⟩ := ih (fun x hx => hh x (List.mem_cons_of_mem _ hx)) (fun x hx => hn' x (List.mem_cons_of_mem _ hx)) hq
    obtain ⟨c1, c2, t1, t2⟩ := item_chars hi
    have hch := says_chars h
    have hln := hn' l (List.mem_cons_self ..)
    have hN : ∀ c ∈ sectionPrefix s ++ n, c ≠ '#' ∧ c ≠ '\n' ∧ c ≠ '=' := by
      intro c hc
      rcases List.mem_append.1 hc with hc | hc
      · exact hs1 c hc
      · exact ⟨(hch c (c1 c hc).1).2, fun e => hln (e ▸ (hch c (c1 c hc).1).1), (c1 c hc).2⟩
    have htr : Trimmed (sectionPrefix s ++ n) := by
      intro c hc
      rcases hc with hc | hc
      · rw [prefix_head hs] at hc
        have := (hw c hc).1
        unfold WhiteSpace at this
        simpa only [not_or] using this
      · rcases prefix_last n hc with hc | rfl
        · exact t1 c (.inr hc)
        · decide
    have hR : Representable (sectionPrefix s ++ n) v := ⟨fun hc => (hN _ hc).2.2 rfl, fun hc => (hN _ hc).1 rfl, fun hc => (hch _ (c2 _ hc)).2 rfl,
      fun hc => (hN _ hc).2.1 rfl, fun hc => hln (hch _ (c2 _ hc)).1, htr, t2, fun hb => by
        rw [prefix_head hs] at hb
        exact (hw _ hb.1).2 rfl⟩
    refine ⟨itemLine (sectionPrefix s ++ n, v) :: ls', .item n v h hi ((says_iff _ _).2 (stripLine_item hR)) ⟨fun m hm => ?_, _, _, rfl, hR.nameEq, ?_, ?_⟩ h1, fun y hy => ?_⟩
    · have := congrArg List.head? hm
      rw [itemLine, List.head?_append, prefix_head hs] at this
      cases hsh : s.head? with
      | none => exact hs (List.head?_eq_none_iff.1 hsh)
      | some c => rw [hsh] at this; exact (hw c hsh).2 (by simpa using this)
    · exact (padded_iff _ _).2 (trimWs_of_trimmed htr)
    · exact (padded_iff _ _).2 (trimWs_of_trimmed t2)
    · rcases List.mem_cons.1 hy with rfl | hy
      · exact item_noNl hR
      · exact h2 y hy

/-- **C145, the same header again.** A header that names the section that is open already may be left out. -/
theorem C145_same_section (desc : List OptionDesc) (au : Bool) (s : Str) (hs : s ≠ []) (l l' : Str) (hl : Says l ('[' :: s ++ [']']))
    (hl' : Says l' ('[' :: s ++ [']'])) (before mid after : List Str) (hm : Headless mid) (last : Str)
    (hn : ∀ x ∈ before ++ l :: mid ++ l' :: after, '\n' ∉ x) (hlast : '\n' ∉ last) :
    parseConfigFile ((before ++ l :: mid ++ l' :: after).flatMap (· ++ ['\n']) ++ last) desc au =
      parseConfigFile ((before ++ l :: mid ++ after).flatMap (· ++ ['\n']) ++ last) desc au := by
  rcases parse_lines desc au with ⟨f, h⟩ | ⟨it, h⟩
  · rw [h, h]
  · have e1 := h (before ++ l :: mid ++ l' :: after) last hn hlast
    have e2 := h (before ++ l :: mid ++ after) last (fun x hx => hn x (by simp only [List.mem_append, List.mem_cons] at hx ⊢; grind)) hlast
    unfold unlines at e1 e2
    rw [e1, e2]
    have e3 : before ++ l :: mid ++ l' :: after ++ [last] = (before ++ l :: mid) ++ (l' :: (after ++ [last])) := by simp
    have e4 : before ++ l :: mid ++ after ++ [last] = (before ++ l :: mid) ++ (after ++ [last]) := by simp
    rw [e3, e4, lines_append, lines_append]
    cases hsc : it.scan [] (before ++ l :: mid) with
    | error f => rfl
    | ok r =>
      have hr : r.2 = sectionPrefix s := by
        rw [scan_append] at hsc
        cases h1 : it.scan [] before with
        | error f => rw [h1] at hsc; cases hsc
        | ok r1 =>
          rw [h1] at hsc
          simp only [ConfigIter.scan, (says_iff _ _).1 hl, line_bracket it _ _ hs] at hsc
          cases h2 : it.scan (sectionPrefix s) mid with
          | error f => rw [h2] at hsc; cases hsc
          | ok r2 =>
            rw [h2] at hsc
            cases hsc
            exact scan_headless it hm h2
      simp only
      rw [ConfigIter.lines, (says_iff _ _).1 hl', line_bracket it _ _ hs, hr]

/-! ### Why the conditions are there -/

/-- A text that does not begin with a header continues the section that is open. -/
theorem C145_needs_header : ∃ (desc : List OptionDesc) (a b : Str) (p pa pb : Parsed), (∃ ls, WholeLines a ls) ∧ parseConfigFile (a ++ b) desc true = .ok p ∧
    parseConfigFile a desc true = .ok pa ∧ parseConfigFile b desc true = .ok pb ∧ p.options ≠ pa.options ++ pb.options :=
  ⟨[], Test.L "[m]\n", Test.L "x=1", _, _, _, ⟨[Test.L "[m]"], rfl, by decide⟩, rfl, rfl, rfl, by decide⟩

def Ex.partDesc : List OptionDesc := [Test.od "gui.bell" (Test.sem Test.vstr), Test.od "m.inc" (Test.sem { Test.vvec with composing := true })]
def Ex.partGui : Str := Test.L "[gui]\nbell=yes\n"
def Ex.partM : Str := Test.L "# second\n[m]\ninc = a\ninc = b\n"

/-- A name that does not compose can be set in each of two files, but not twice in one. -/
theorem C145_given_twice : ∃ (desc : List OptionDesc) (a : Str) (p pa : Parsed) (m : VarMap) (f : Fail), FilePart a ∧ parseConfigFile (a ++ a) desc false = .ok p ∧
    parseConfigFile a desc false = .ok pa ∧ (store p {}).2 = some f ∧ Stores {} [(pa, false), (pa, false)] m :=
  ⟨Ex.partDesc, Ex.partGui, _, _, _, _, ⟨[Test.L "[gui]", Test.L "bell=yes"], ⟨rfl, by decide⟩, .header (Test.L "gui") ((says_iff _ _).2 rfl)⟩, rfl, rfl, rfl,
    .cons rfl (.cons rfl (.nil _))⟩

/-! ### Examples -/

theorem Ex.gui_part : FilePart Ex.partGui := ⟨[Test.L "[gui]", Test.L "bell=yes"], ⟨rfl, by decide⟩, .header (Test.L "gui") ((says_iff _ _).2 rfl)⟩

theorem Ex.m_part : FilePart Ex.partM :=
  ⟨[Test.L "# second", Test.L "[m]", Test.L "inc = a", Test.L "inc = b"], ⟨rfl, by decide⟩, .blank ((says_iff _ _).2 rfl) (.header (Test.L "m") ((says_iff _ _).2 rfl))⟩

/-- The names of a text, for the examples. -/
theorem Ex.names_of {t : Str} {p : Parsed} (hp : parseConfigFile t [] true = .ok p) {es : List (Str × Str)} (h : FileEntries t es) :
    ∀ e ∈ es, e.1 ∈ p.options.map (·.stringKey) := by
  obtain ⟨-, es', os, h1, h2, rfl, -⟩ := (C123_read _ _ _ _).1 hp
  rw [C123_unique t es es' h h1]
  intro e he
  obtain ⟨o, ho, hk, -⟩ := (SharedFile.marked_mem h2).2 e he
  exact List.mem_map.2 ⟨o, ho, hk⟩

theorem Ex.gui_m : NoCommonName Ex.partGui Ex.partM := by
  intro es es' h h' e he e' he' heq
  have h1 := Ex.names_of (p := Ex.got (parseConfigFile Ex.partGui [] true)) rfl h e he
  have h2 := Ex.names_of (p := Ex.got (parseConfigFile Ex.partM [] true)) rfl h' e' he'
  rw [heq] at h1
  have hd : ∀ n ∈ (Ex.got (parseConfigFile Ex.partGui [] true)).options.map (·.stringKey),
      n ∉ (Ex.got (parseConfigFile Ex.partM [] true)).options.map (·.stringKey) := by decide
  exact hd _ h1 h2

example : ∃ p', parseConfigFile (Test.L "m.inc=0\n" ++ [Ex.partM, Ex.partGui].flatten) Ex.partDesc false = .ok p' ∧
    ∀ (xm : VarMap), xm.Ordered → ∀ u m,
      store (Ex.got (parseConfigFile (Test.L "m.inc=0\n" ++ [Ex.partGui, Ex.partM].flatten) Ex.partDesc false)) xm u = (m, none) ↔ store p' xm u = (m, none) :=
  C145_order Ex.partDesc false (Test.L "m.inc=0\n") ⟨[Test.L "m.inc=0"], rfl, by decide⟩ [Ex.partGui, Ex.partM] [Ex.partM, Ex.partGui] (.swap ..)
    (by intro t ht; rcases List.mem_cons.1 ht with rfl | ht; exacts [Ex.gui_part, List.mem_singleton.1 ht ▸ Ex.m_part])
    (by simp only [List.pairwise_cons, List.mem_singleton, List.not_mem_nil]
        exact ⟨fun _ h => h ▸ Ex.gui_m, nofun, .nil⟩) _ rfl

/-- The composing option collects its values from both parts, in one file or in two. -/
example : ∃ m, Stores {} [(Ex.got (parseConfigFile (Ex.partM ++ Ex.partM) Ex.partDesc false), false)] m ∧
    (m.map.get? (Test.L "m.inc")).bind (·.v) = some (.vector .str [.str (Test.L "a"), .str (Test.L "b"), .str (Test.L "a"), .str (Test.L "b")]) :=
  ⟨_, .cons rfl (.nil _), rfl⟩

example : (∃ m, Stores {} [(Ex.got (parseConfigFile (Ex.partGui ++ Ex.partM) Ex.partDesc false), false)] m) ↔
    ∃ m, Stores {} [(Ex.got (parseConfigFile Ex.partGui Ex.partDesc false), false), (Ex.got (parseConfigFile Ex.partM Ex.partDesc false), false)] m :=
  (C145_one_or_two Ex.partDesc false Ex.partGui Ex.partM ⟨[Test.L "[gui]", Test.L "bell=yes"], rfl, by decide⟩ (filePart_starts Ex.m_part) _ _ _ rfl rfl rfl (by
    intro name d h1 h2
    obtain ⟨o, ho, rfl, -⟩ := h1
    obtain ⟨o', ho', e, -⟩ := h2
    exact absurd e ((by decide : ∀ o ∈ (Ex.got (parseConfigFile Ex.partGui Ex.partDesc false)).options,
      ∀ o' ∈ (Ex.got (parseConfigFile Ex.partM Ex.partDesc false)).options, o'.stringKey ≠ o.stringKey) o ho o' ho')) false [] []).1

/-- The example of the documentation. -/
example (desc : List OptionDesc) (au : Bool) :
    parseConfigFile (Test.L "[gui.accessibility]\nvisual_bell=yes\n") desc au = parseConfigFile (Test.L "gui.accessibility.visual_bell=yes\n") desc au :=
  C145_in_full desc au (Test.L "gui.accessibility") (by decide) (Test.L "[gui.accessibility]") ((says_iff _ _).2 rfl) [Test.L "visual_bell=yes"]
    [Test.L "gui.accessibility.visual_bell=yes"]
    (.item (Test.L "visual_bell") (Test.L "yes") ((says_iff _ _).2 rfl) ⟨fun m hm => absurd (congrArg List.head? hm) (by simp [Test.L]; decide), Test.L "visual_bell", Test.L "yes", rfl, by decide, (padded_iff _ _).2 rfl, (padded_iff _ _).2 rfl⟩
      ((says_iff _ _).2 rfl) ⟨fun m hm => absurd (congrArg List.head? hm) (by simp [Test.L]; decide), Test.L "gui.accessibility.visual_bell", Test.L "yes", rfl, by decide, (padded_iff _ _).2 rfl, (padded_iff _ _).2 rfl⟩ .nil)
    (by decide) [] ⟨[], [], rfl, by simp, by simp, .blank ((says_iff _ _).2 rfl) .none⟩

example (desc : List OptionDesc) (au : Bool) :
    parseConfigFile (Test.L "[m]\na=1\n[m]\nb=2\n") desc au = parseConfigFile (Test.L "[m]\na=1\nb=2\n") desc au :=
  C145_same_section desc au (Test.L "m") (by decide) (Test.L "[m]") (Test.L "[m]") ((says_iff _ _).2 rfl) ((says_iff _ _).2 rfl) [] [Test.L "a=1"] [Test.L "b=2"]
    (by intro l hl s hs
        rw [List.mem_singleton.1 hl, says_iff] at hs
        exact absurd (congrArg List.head? hs) (show some 'a' ≠ some '[' by decide)) [] (by decide) (by decide)

/-- A section whose name cannot be written in front of an equals sign. -/
example : ∃ p, parseConfigFile (Test.L "[a=b]\nx=1\n") [] true = .ok p ∧ p.options.map (·.stringKey) = [Test.L "a=b.x"] := ⟨_, rfl, by decide⟩

end PO
