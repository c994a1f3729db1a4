import Verif.Spec.SharedFile
import Verif.Props.ConfigGrammar
import Verif.Props.Joined
/-
C123: configuration files with entries that the program does not know.
-/
namespace PO
open Spec

namespace SharedFile

theorem lines_iff {desc : List OptionDesc} {au : Bool} {pre : Str} {ls : List Str} {os : List Opt} :
    FileLines desc au pre ls os ↔ ∃ es, Entries pre ls es ∧ Marked desc es os ∧ (au = false → ∀ e ∈ es, Accepts desc e.1) := by
  constructor
  · intro h
    induction h with
    | nil => exact ⟨[], .nil, .nil, by simp⟩
    | blank h _ ih => obtain ⟨es, h1, h2, h3⟩ := ih; exact ⟨es, .blank h h1, h2, h3⟩
    | header s h hs _ ih => obtain ⟨es, h1, h2, h3⟩ := ih; exact ⟨es, .header s h hs h1, h2, h3⟩
    | known s n v h hi ha _ ih =>
      obtain ⟨es, h1, h2, h3⟩ := ih
      refine ⟨_, .item s n v h hi h1, .known ha h2, fun hau e he => ?_⟩
      rcases List.mem_cons.1 he with rfl | he
      · exact ha
      · exact h3 hau e he
    | unknown s n v h hi ha hu _ ih =>
      obtain ⟨es, h1, h2, h3⟩ := ih
      exact ⟨_, .item s n v h hi h1, .unknown ha h2, fun hau => by rw [hau] at hu; cases hu⟩
  · rintro ⟨es, h1, h2, h3⟩
    induction h1 generalizing os with
    | nil => cases h2; exact .nil
    | blank h _ ih => exact .blank h (ih h2 h3)
    | header s h hs _ ih => exact .header s h hs (ih h2 h3)
    | item s n v h hi _ ih =>
      cases h2 with
      | known ha t => exact .known s n v h hi ha (ih t fun hau e he => h3 hau e (List.mem_cons_of_mem _ he))
      | unknown ha t =>
        refine .unknown s n v h hi ha ?_ (ih t fun hau e he => h3 hau e (List.mem_cons_of_mem _ he))
        cases au with
        | true => rfl
        | false => exact absurd (h3 rfl _ (List.mem_cons_self ..)) ha

theorem marked_exists (desc : List OptionDesc) (es : List (Str × Str)) : ∃ os, Marked desc es os := by
  induction es with
  | nil => exact ⟨_, .nil⟩
  | cons e es ih =>
    obtain ⟨os, h⟩ := ih
    obtain ⟨n, v⟩ := e
    rcases Classical.em (Accepts desc n) with ha | ha
    · exact ⟨_, .known ha h⟩
    · exact ⟨_, .unknown ha h⟩

theorem marked_det {desc : List OptionDesc} {es : List (Str × Str)} {os os' : List Opt} (h : Marked desc es os) (h' : Marked desc es os') : os = os' := by
  induction h generalizing os' with
  | nil => cases h'; rfl
  | known ha _ ih => cases h' with
    | known _ t => rw [ih t]
    | unknown hb => exact absurd ha hb
  | unknown ha _ ih => cases h' with
    | known hb => exact absurd hb ha
    | unknown _ t => rw [ih t]

theorem marked_entries {desc desc' : List OptionDesc} {es es' : List (Str × Str)} {os : List Opt} (h : Marked desc es os) (h' : Marked desc' es' os) : es = es' := by
  induction h generalizing es' with
  | nil => cases h'; rfl
  | known ha _ ih => cases h' with | known _ t => rw [ih t]
  | unknown ha _ ih => cases h' with | unknown _ t => rw [ih t]

theorem marked_mem {desc : List OptionDesc} {es : List (Str × Str)} {os : List Opt} (h : Marked desc es os) :
    (∀ o ∈ os, (o.stringKey, o.value.headD []) ∈ es ∧ o.value = [o.value.headD []] ∧ (o.unregistered = true ↔ ¬ Accepts desc o.stringKey)) ∧
    ∀ e ∈ es, ∃ o ∈ os, o.stringKey = e.1 ∧ o.value = [e.2] := by
  induction h with
  | nil => simp
  | known ha _ ih =>
    refine ⟨fun o ho => ?_, fun e he => ?_⟩
    · rcases List.mem_cons.1 ho with rfl | ho
      · exact ⟨List.mem_cons_self .., rfl, (by intro h; cases h), fun h => absurd ha h⟩
      · obtain ⟨h1, h2⟩ := ih.1 o ho
        exact ⟨List.mem_cons_of_mem _ h1, h2⟩
    · rcases List.mem_cons.1 he with rfl | he
      · exact ⟨_, List.mem_cons_self .., rfl, rfl⟩
      · obtain ⟨o, ho, h⟩ := ih.2 e he
        exact ⟨o, List.mem_cons_of_mem _ ho, h⟩
  | unknown ha _ ih =>
    refine ⟨fun o ho => ?_, fun e he => ?_⟩
    · rcases List.mem_cons.1 ho with rfl | ho
      · exact ⟨List.mem_cons_self .., rfl, fun _ => ha, fun _ => rfl⟩
      · obtain ⟨h1, h2⟩ := ih.1 o ho
        exact ⟨List.mem_cons_of_mem _ h1, h2⟩
    · rcases List.mem_cons.1 he with rfl | he
      · exact ⟨_, List.mem_cons_self .., rfl, rfl⟩
      · obtain ⟨o, ho, h⟩ := ih.2 e he
        exact ⟨o, List.mem_cons_of_mem _ ho, h⟩

theorem passed_det {desc : List OptionDesc} {es : List (Str × Str)} {a b : List Str} (h : PassedOn desc es a) (h' : PassedOn desc es b) : a = b := by
  induction h generalizing b with
  | nil => cases h'; rfl
  | known ha _ ih => cases h' with
    | known _ t => exact ih t
    | unknown hb => exact absurd ha hb
  | unknown ha _ ih => cases h' with
    | known hb => exact absurd hb ha
    | unknown _ t => rw [ih t]

end SharedFile
open SharedFile

/-- **C123.** A configuration file is read exactly if the names can be declared, its lines are well-formed and, unless unregistered entries are allowed,
every entry is declared. -/
theorem C123_read (text : Str) (desc : List OptionDesc) (au : Bool) (p : Parsed) :
    parseConfigFile text desc au = .ok p ↔
      Declarable desc ∧ ∃ es os, FileEntries text es ∧ Marked desc es os ∧ p = { desc, options := os } ∧ (au = false → ∀ e ∈ es, Accepts desc e.1) := by
  rw [C64_accepted]
  constructor
  · rintro ⟨h1, h2, ls, last, os, h3, h4, h5, h6, rfl⟩
    obtain ⟨es, e1, e2, e3⟩ := lines_iff.1 h6
    exact ⟨⟨h1, h2⟩, es, os, ⟨ls, last, h3, h4, h5, e1⟩, e2, rfl, e3⟩
  · rintro ⟨⟨h1, h2⟩, es, os, ⟨ls, last, h3, h4, h5, e1⟩, e2, rfl, e3⟩
    exact ⟨h1, h2, ls, last, os, h3, h4, h5, lines_iff.2 ⟨es, e1, e2, e3⟩, rfl⟩

/-- The entries do not depend on who reads the file, and there is one way to read them. -/
theorem C123_unique (text : Str) (es es' : List (Str × Str)) (h : FileEntries text es) (h' : FileEntries text es') : es = es' := by
  have hd : Declarable [] := ⟨by simp, by rintro ⟨d, hd, -⟩; cases hd⟩
  obtain ⟨os, ho⟩ := marked_exists [] es
  obtain ⟨os', ho'⟩ := marked_exists [] es'
  have e1 := (C123_read text [] true _).2 ⟨hd, es, os, h, ho, rfl, by simp⟩
  have e2 := (C123_read text [] true _).2 ⟨hd, es', os', h', ho', rfl, by simp⟩
  cases e1.symm.trans e2
  exact marked_entries ho ho'

/-- To refuse unregistered entries is to allow them and find none. -/
theorem C123_refusing (text : Str) (desc : List OptionDesc) (p : Parsed) :
    parseConfigFile text desc false = .ok p ↔ parseConfigFile text desc true = .ok p ∧ ∀ o ∈ p.options, o.unregistered = false := by
  rw [C123_read, C123_read]
  constructor
  · rintro ⟨hd, es, os, h1, h2, rfl, h3⟩
    refine ⟨⟨hd, es, os, h1, h2, rfl, by simp⟩, fun o ho => ?_⟩
    obtain ⟨m1, -, m3⟩ := (marked_mem h2).1 o ho
    cases hu : o.unregistered with
    | false => rfl
    | true => exact absurd (h3 rfl _ m1) (m3.1 hu)
  · rintro ⟨⟨hd, es, os, h1, h2, rfl, -⟩, h3⟩
    refine ⟨hd, es, os, h1, h2, rfl, fun _ e he => ?_⟩
    obtain ⟨o, ho, k, -⟩ := (marked_mem h2).2 e he
    obtain ⟨-, -, m3⟩ := (marked_mem h2).1 o ho
    rw [← k]
    rcases Classical.em (Accepts desc o.stringKey) with ha | ha
    · exact ha
    · have := h3 o ho
      rw [m3.2 ha] at this
      cases this

/-- `collect_unrecognized` gives the names and values of the entries that are not declared, in order, whether or not positional options are asked for. -/
theorem C123_passed_on (text : Str) (desc : List OptionDesc) (au : Bool) (p : Parsed) (h : parseConfigFile text desc au = .ok p) (es : List (Str × Str))
    (he : FileEntries text es) (mode : CollectMode) (ts : List Str) : collectUnrecognized mode p.options = ts ↔ PassedOn desc es ts := by
  obtain ⟨-, es', os, h1, h2, rfl, -⟩ := (C123_read text desc au p).1 h
  cases C123_unique text es es' he h1
  have key : PassedOn desc es (collectUnrecognized mode os) := by
    clear h he h1
    induction h2 with
    | nil => exact .nil
    | known ha _ ih =>
      rw [collectUnrecognized, if_neg]
      · exact .known ha ih
      · rintro (h | ⟨-, h⟩)
        · cases h
        · exact h rfl
    | unknown ha _ ih =>
      rw [collectUnrecognized, if_pos (.inl rfl)]
      exact .unknown ha ih
  constructor
  · rintro rfl; exact key
  · intro ht; exact passed_det key ht

/-- What is read is a source in the sense of C121, whether or not unregistered entries are allowed; -/
theorem C123_source (env : Env) (all : List OptionDesc) (ha : OwnOptions env all) (desc : List OptionDesc) (hc : NoClash desc) (hsub : ∀ d ∈ desc, d ∈ all)
    (text : Str) (au : Bool) (p : Parsed) (h : parseConfigFile text desc au = .ok p) : SourceOf all p := by
  obtain ⟨-, es, os, h1, h2, rfl, -⟩ := (C123_read text desc au p).1 h
  refine ⟨hsub, hc, fun n hn => ?_⟩
  obtain ⟨o, ho, rfl, hk, hreg⟩ := hn
  have hacc : Accepts desc o.stringKey := by
    obtain ⟨-, -, m3⟩ := (marked_mem h2).1 o ho
    rcases Classical.em (Accepts desc o.stringKey) with hx | hx
    · exact hx
    · rw [m3.2 hx] at hreg; cases hreg
  obtain ⟨d, hd, hacc⟩ := hacc
  exact ⟨d, hd, accepts_own (ha.named d (hsub d hd)) hk hacc⟩

/-- also from a file that is named. -/
theorem C123_named_source (env : Env) (all : List OptionDesc) (ha : OwnOptions env all) (desc : List OptionDesc) (hc : NoClash desc) (hsub : ∀ d ∈ desc, d ∈ all)
    (name : Str) (file : FileState) (au : Bool) (p : Parsed) (h : parseConfigFileNamed name file desc au = .ok p) : SourceOf all p := by
  unfold parseConfigFileNamed at h
  cases file with
  | missing => cases h
  | text t bad =>
    dsimp only at h
    cases hp : parseConfigFile t desc au with
    | error f => rw [hp] at h; cases h
    | ok q =>
      rw [hp] at h
      dsimp only at h
      split at h
      · cases h
      · cases h
        exact C123_source env all ha desc hc hsub t au p hp

namespace SharedFile

theorem accepts_append {A B : List OptionDesc} {n : Str} : Accepts (A ++ B) n ↔ Accepts A n ∨ Accepts B n := by
  unfold Accepts
  constructor
  · rintro ⟨d, hd, h⟩
    rcases List.mem_append.1 hd with hd | hd
    · exact .inl ⟨d, hd, h⟩
    · exact .inr ⟨d, hd, h⟩
  · rintro (⟨d, hd, h⟩ | ⟨d, hd, h⟩)
    · exact ⟨d, List.mem_append_left _ hd, h⟩
    · exact ⟨d, List.mem_append_right _ hd, h⟩

theorem declarable_left {A B : List OptionDesc} (h : Declarable (A ++ B)) : Declarable A :=
  ⟨fun d hd => h.1 d (List.mem_append_left _ hd), fun ⟨d1, h1, d2, h2, r⟩ => h.2 ⟨d1, List.mem_append_left _ h1, d2, List.mem_append_left _ h2, r⟩⟩

theorem declarable_right {A B : List OptionDesc} (h : Declarable (A ++ B)) : Declarable B :=
  ⟨fun d hd => h.1 d (List.mem_append_right _ hd), fun ⟨d1, h1, d2, h2, r⟩ => h.2 ⟨d1, List.mem_append_right _ h1, d2, List.mem_append_right _ h2, r⟩⟩

theorem noClash_left {A B : List OptionDesc} (h : NoClash (A ++ B)) : NoClash A := by
  intro n hn
  have := h n hn
  unfold exacts at this ⊢
  rw [List.filter_append, List.length_append] at this
  omega

theorem noClash_right {A B : List OptionDesc} (h : NoClash (A ++ B)) : NoClash B := by
  intro n hn
  have := h n hn
  unfold exacts at this ⊢
  rw [List.filter_append, List.length_append] at this
  omega

/-- The tokens of a name. -/
theorem marked_tokens {desc : List OptionDesc} {es : List (Str × Str)} {os : List Opt} (h : Marked desc es os) {n : Str} (hn : n ≠ []) :
    (Accepts desc n → tokensOf os n = (es.filter (·.1 = n)).map fun e => [e.2]) ∧ (¬ Accepts desc n → tokensOf os n = []) := by
  have step : ∀ (o : Opt) os, tokensOf (o :: os) n = if o.stringKey = n ∧ o.unregistered = false then o.value :: tokensOf os n else tokensOf os n := by
    intro o os
    unfold tokensOf occurrences
    rw [List.filter_cons]
    by_cases hc : o.stringKey = n ∧ o.unregistered = false
    · rw [if_pos hc, if_pos (by simp [hc, hn])]
      rfl
    · rw [if_neg hc, if_neg]
      intro h
      simp only [decide_eq_true_eq] at h
      exact hc ⟨h.1, h.2.2⟩
  induction h with
  | nil => exact ⟨fun _ => rfl, fun _ => rfl⟩
  | @known n' v es os ha _ ih =>
    rw [step]
    by_cases he : n' = n
    · subst he
      refine ⟨fun _ => ?_, fun h => absurd ha h⟩
      rw [if_pos ⟨rfl, rfl⟩, ih.1 ha, List.filter_cons, if_pos (by simp)]
      rfl
    · rw [if_neg (fun h => he h.1), List.filter_cons, if_neg (by simpa using he)]
      exact ih
  | @unknown n' v es os ha _ ih =>
    rw [step, if_neg (by rintro ⟨-, h⟩; cases h)]
    refine ⟨fun h => ?_, ih.2⟩
    have he : n' ≠ n := by rintro rfl; exact ha h
    rw [List.filter_cons, if_neg (by simpa using he)]
    exact ih.1 h

theorem gains_det {env : Env} {s : ValueSemantic} (hs : PlainValue env s) {L : List (List Str)} {r r' : Any} (h : Gains env s L r) (h' : Gains env s L r') : r = r' :=
  Except.ok.inj (((gains_iff hs L r).2 h).symm.trans ((gains_iff hs L r').2 h'))

end SharedFile

/-- One file for two programs: one that knows the options of both accepts it exactly if each of the two reads it while allowing unregistered entries, and
every entry belongs to one of them. -/
theorem C123_two (A B : List OptionDesc) (hd : Declarable (A ++ B)) (text : Str) :
    (∃ p, parseConfigFile text (A ++ B) false = .ok p) ↔
      (∃ pa, parseConfigFile text A true = .ok pa) ∧ (∃ pb, parseConfigFile text B true = .ok pb) ∧
        ∀ es, FileEntries text es → ∀ e ∈ es, Accepts A e.1 ∨ Accepts B e.1 := by
  constructor
  · rintro ⟨p, hp⟩
    obtain ⟨-, es, os, h1, h2, rfl, h3⟩ := (C123_read _ _ _ _).1 hp
    obtain ⟨oa, ha⟩ := marked_exists A es
    obtain ⟨ob, hb⟩ := marked_exists B es
    refine ⟨⟨_, (C123_read _ _ _ _).2 ⟨declarable_left hd, es, oa, h1, ha, rfl, by simp⟩⟩, ⟨_, (C123_read _ _ _ _).2 ⟨declarable_right hd, es, ob, h1, hb, rfl, by simp⟩⟩, ?_⟩
    intro es' he e hm
    cases C123_unique text es es' h1 he
    exact accepts_append.1 (h3 rfl e hm)
  · rintro ⟨⟨pa, hpa⟩, -, h3⟩
    obtain ⟨-, es, oa, h1, h2, rfl, -⟩ := (C123_read _ _ _ _).1 hpa
    obtain ⟨os, ho⟩ := marked_exists (A ++ B) es
    exact ⟨_, (C123_read _ _ _ _).2 ⟨hd, es, os, h1, ho, rfl, fun _ e he => accepts_append.2 (h3 es h1 e he)⟩⟩

/-- What the two read, stored in one map, is what the one that knows all the options stores. -/
theorem C123_same (env : Env) (A B : List OptionDesc) (hown : OwnOptions env (A ++ B)) (hc : NoClash (A ++ B)) (hdis : ∀ d ∈ A, d ∉ B) (text : Str) (p pa pb : Parsed)
    (hp : parseConfigFile text (A ++ B) false = .ok p) (hpa : parseConfigFile text A true = .ok pa) (hpb : parseConfigFile text B true = .ok pb) :
    ((∃ m, Stores {} [(p, false)] m) ↔ ∃ m, Stores {} [(pa, false), (pb, false)] m) ∧
    ∀ m m', Stores {} [(p, false)] m → Stores {} [(pa, false), (pb, false)] m' → ∀ n, m.map.get? n = m'.map.get? n := by
  have hl : ∀ d ∈ A, d ∈ A ++ B := fun d hd => List.mem_append_left _ hd
  have hr : ∀ d ∈ B, d ∈ A ++ B := fun d hd => List.mem_append_right _ hd
  have sp := C123_source env _ hown _ hc (fun _ h => h) text false p hp
  have sa := C123_source env _ hown A (noClash_left hc) hl text true pa hpa
  have sb := C123_source env _ hown B (noClash_right hc) hr text true pb hpb
  obtain ⟨-, es, os, h1, h2, rfl, -⟩ := (C123_read _ _ _ _).1 hp
  obtain ⟨-, es1, oa, a1, a2, rfl, -⟩ := (C123_read _ _ _ _).1 hpa
  obtain ⟨-, es2, ob, b1, b2, rfl, -⟩ := (C123_read _ _ _ _).1 hpb
  cases C123_unique _ _ _ h1 a1
  cases C123_unique _ _ _ h1 b1
  have hnot : ∀ n, n ≠ [] → Accepts A n → ¬ Accepts B n := by
    rintro n hn ⟨d, hd, ha⟩ ⟨d', hd', hb⟩
    have e1 := accepts_own (hown.named d (hl d hd)) hn ha
    have e2 := accepts_own (hown.named d' (hr d' hd')) hn hb
    cases hown.distinct d (hl d hd) d' (hr d' hd') (e2.trans e1.symm)
    exact hdis _ hd hd'
  let srcs : List Parsed := [⟨A ++ B, os, 0⟩]
  let srcs' : List Parsed := [⟨A, oa, 0⟩, ⟨B, ob, 0⟩]
  have hs : ∀ x ∈ srcs, SourceOf (A ++ B) x := by
    intro x hx; cases List.mem_singleton.1 hx; exact sp
  have hs' : ∀ x ∈ srcs', SourceOf (A ++ B) x := by
    intro x hx
    rcases List.mem_cons.1 hx with rfl | hx
    · exact sa
    · cases List.mem_singleton.1 hx; exact sb
  have heq : ∀ d ∈ A ++ B, heardOf srcs d = heardOf srcs' d := by
    intro d hd
    have hn := hown.named d hd
    show heard _ [tokensOf os d.own] = heard _ [tokensOf oa d.own, tokensOf ob d.own]
    have m := marked_tokens h2 hn
    have ma := marked_tokens a2 hn
    have mb := marked_tokens b2 hn
    have key : ∀ (b : Bool) (L : List (List Str)), heard b [L] = L ∧ heard b [L, []] = L ∧ heard b [[], L] = L := by
      intro b L
      cases b <;> by_cases hL : L = [] <;> simp [heard, hL]
    rcases Classical.em (Accepts A d.own) with ha | ha
    · rw [m.1 (accepts_append.2 (.inl ha)), ma.1 ha, mb.2 (hnot _ hn ha), (key _ _).1, (key _ _).2.1]
    · rw [ma.2 ha]
      rcases Classical.em (Accepts B d.own) with hb | hb
      · rw [m.1 (accepts_append.2 (.inr hb)), mb.1 hb, (key _ _).1, (key _ _).2.2]
      · rw [m.2 (fun h => (accepts_append.1 h).elim ha hb), mb.2 hb, (key _ _).1, (key _ _).2.1]
  constructor
  · have e1 := C121_stored env _ hown srcs hs
    have e2 := C121_stored env _ hown srcs' hs'
    refine e1.trans (Iff.trans ?_ e2.symm)
    exact forall_congr' fun d => forall_congr' fun hd => by rw [heq d hd]
  · intro m m' hm hm' n
    by_cases hex : ∃ d ∈ A ++ B, d.own = n
    · obtain ⟨d, hd, rfl⟩ := hex
      by_cases hg : heardOf srcs d = []
      · have g1 := Joined.heardOf_nil.1 hg
        have g2 := Joined.heardOf_nil.1 ((heq d hd).symm.trans hg)
        rw [(C121_not_given env _ hown srcs hs m hm d hd g1).1 ⟨_, List.mem_singleton.2 rfl, hd⟩,
          (C121_not_given env _ hown srcs' hs' m' hm' d hd g2).1]
        rcases List.mem_append.1 hd with h | h
        · exact ⟨_, List.mem_cons_self .., h⟩
        · exact ⟨_, List.mem_cons_of_mem _ (List.mem_singleton.2 rfl), h⟩
      · have x1 : ∃ x ∈ srcs, Mentions x.options d.own := by
          rcases Classical.em (∃ x ∈ srcs, Mentions x.options d.own) with h | h
          · exact h
          · exact absurd (Joined.heardOf_nil.2 fun x hx hm => h ⟨x, hx, hm⟩) hg
        have x2 : ∃ x ∈ srcs', Mentions x.options d.own := by
          rcases Classical.em (∃ x ∈ srcs', Mentions x.options d.own) with h | h
          · exact h
          · exact absurd ((heq d hd).trans (Joined.heardOf_nil.2 fun x hx hm => h ⟨x, hx, hm⟩)) hg
        obtain ⟨y1, i1, j1⟩ := x1
        obtain ⟨y2, i2, j2⟩ := x2
        obtain ⟨r, k1, l1⟩ := C121_given env _ hown srcs hs m hm d hd y1 i1 j1
        obtain ⟨r', k2, l2⟩ := C121_given env _ hown srcs' hs' m' hm' d hd y2 i2 j2
        rw [heq d hd] at k1
        rw [l1, l2, gains_det (hown.plain d hd) k1 k2]
    · have hno : ∀ d ∈ A ++ B, d.own ≠ n := fun d hd h => hex ⟨d, hd, h⟩
      rw [C121_nothing_else env _ hown srcs hs m hm n hno, C121_nothing_else env _ hown srcs' hs' m' hm' n hno]

/-- For an option that is in the file, `bool_switch` and `value<bool>` make no difference. -/
theorem C123_bool (env : Env) (L : List (List Str)) (r : Any) :
    Gains env ((boolSwitch none).toSemantic env) L r ↔ Gains env (({ type := .scalar .bool } : TypedValue).toSemantic env) L r := by
  have w1 : WellTyped (boolSwitch none) := ⟨(by rintro q h; cases h; rfl), by rintro q h; cases h⟩
  have w2 : WellTyped ({ type := .scalar .bool } : TypedValue) := ⟨(by rintro q h; cases h), by rintro q h; cases h⟩
  rw [← gains_iff (.typed _ w1 rfl), ← gains_iff (.typed _ w2 rfl)]
  have hp : ((boolSwitch none).toSemantic env).parse = (({ type := .scalar .bool } : TypedValue).toSemantic env).parse := rfl
  have key : ∀ (s s' : ValueSemantic), s.parse = s'.parse → ∀ (L : List (List Str)) (v : Any), parseAll s false v L = parseAll s' false v L := by
    intro s s' h L
    induction L with
    | nil => intro v; rfl
    | cons x xs ih => intro v; simp only [parseAll, h, ih]
  rw [key _ _ hp]

/-! ### An example: the file of C121's example, read by two programs -/

def Ex.sharedText : Str := Test.L "name = y\n# both\ninc = b\ninc = c\n"
def Ex.sharedA : List OptionDesc := Ex.threeDesc.take 1
def Ex.sharedB : List OptionDesc := Ex.threeDesc.drop 1
def Ex.shared1 : Parsed := Ex.got (parseConfigFile Ex.sharedText Ex.sharedA true)
def Ex.shared2 : Parsed := Ex.got (parseConfigFile Ex.sharedText Ex.sharedB true)
def Ex.sharedBoth : Parsed := Ex.got (parseConfigFile Ex.sharedText (Ex.sharedA ++ Ex.sharedB) false)

example : collectUnrecognized .excludePositional Ex.shared1.options = [Test.L "inc", Test.L "b", Test.L "inc", Test.L "c"] ∧
    collectUnrecognized .includePositional Ex.shared2.options = [Test.L "name", Test.L "y"] ∧
    (∃ f, parseConfigFile Ex.sharedText Ex.sharedA false = .error f) := ⟨by decide, by decide, _, rfl⟩

example : ∀ m m', Stores {} [(Ex.sharedBoth, false)] m → Stores {} [(Ex.shared1, false), (Ex.shared2, false)] m' → ∀ n, m.map.get? n = m'.map.get? n :=
  (C123_same Test.env Ex.sharedA Ex.sharedB Ex.three_own Ex.three_named.distinct (by
    intro d hd
    cases List.mem_singleton.1 (show d ∈ [Test.od "name" (Test.sem { Test.vstr with storeTo := some 1 })] from hd)
    intro h
    have h : _ ∈ [Test.od "inc" (Test.sem { Test.vvec with composing := true, storeTo := some 2 }),
      Test.od "mode" (Test.sem { Test.vstr with storeTo := some 3, dflt := some (.scalar (.str (Test.L "slow")), Test.L "slow") })] := h
    rcases List.mem_cons.1 h with h | h
    · have := congrArg OptionDesc.longNames h; revert this; decide
    · have := congrArg OptionDesc.longNames (List.mem_singleton.1 h); revert this; decide) Ex.sharedText _ _ _ rfl rfl rfl).2

example : ∃ m, Stores {} [(Ex.shared1, false), (Ex.shared2, false)] m ∧
    (m.map.get? (Test.L "inc")).bind (·.v) = some (.vector .str [.str (Test.L "b"), .str (Test.L "c")]) :=
  ⟨_, .cons rfl (.cons rfl (.nil _)), rfl⟩

end PO
