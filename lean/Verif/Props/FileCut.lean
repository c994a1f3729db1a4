import Verif.Spec.FileCut
import Verif.Props.FileParts
/-
C161: configuration files that are cut off.
-/
namespace PO
open Spec

namespace FileCut

theorem trimWs_prefix (l x : Str) : trimWs l <+: trimWs (l ++ x) := by
  obtain ⟨a, b, hl, ha, hb, ht⟩ := (padded_iff l (trimWs l)).2 rfl
  generalize trimWs l = t at *
  subst hl
  cases t with
  | nil => exact List.nil_prefix
  | cons c t =>
    obtain ⟨a2, b2, h2, ha2, hb2, ht2⟩ := (padded_iff (b ++ x) (trimWs (b ++ x))).2 rfl
    rw [trimmed_iff] at ht ht2
    generalize trimWs (b ++ x) = u at *
    by_cases he : u = []
    · have : trimWs (a ++ c :: t ++ b ++ x) = c :: t := by
        rw [← padded_iff]
        refine ⟨a, b ++ x, by simp, ha, ?_, (trimmed_iff _).2 ht⟩
        rw [h2, he]
        intro d hd
        simp only [List.append_nil, List.mem_append] at hd
        rcases hd with hd | hd
        exacts [ha2 d hd, hb2 d hd]
      rw [this]
      exact List.prefix_rfl
    · have : trimWs (a ++ c :: t ++ b ++ x) = c :: t ++ (a2 ++ u) := by
        rw [← padded_iff]
        refine ⟨a, b2, ?_, ha, hb2, (trimmed_iff _).2 ⟨fun d hd => ht.1 d (by simpa using hd), fun d hd => ht2.2 d ?_⟩⟩
        · rw [List.append_assoc (a ++ c :: t) b x, h2]
          simp
        · rw [← List.append_assoc, List.getLast?_append_of_ne_nil _ he] at hd
          exact hd
      rw [this]
      exact List.prefix_append ..

theorem stripLine_prefix (l x : Str) : stripLine l <+: stripLine (l ++ x) := by
  rw [stripLine_eq, stripLine_eq]
  by_cases h : '#' ∈ l
  · rw [takeWhile_append_hash, if_pos h]
    exact List.prefix_rfl
  · rw [takeWhile_append_hash, if_neg h]
    have : l.takeWhile (· != '#') = l := by
      have := takeWhile_append_hash l []
      rw [if_neg h] at this
      simpa using this
    rw [this]
    exact trimWs_prefix ..

theorem item_longer {s s' n v : Str} (h : ConfigItem s n v) (hs : s <+: s') (hb : s.head? ≠ some '[') :
    ∃ v', ConfigItem s' n v' ∧ v <+: v' := by
  obtain ⟨a, b, rfl, h1, h2, h3⟩ := h.split
  obtain ⟨y, rfl⟩ := hs
  refine ⟨trimWs (b ++ y), ⟨?_, a, b ++ y, by simp, h1, h2, (padded_iff _ _).2 rfl⟩, ?_⟩
  · intro m hm
    apply hb
    cases a with
    | nil => simp at hm
    | cons c a => simp at hm; simp [hm.1]
  · rw [← (padded_iff _ _).1 h3]
    exact trimWs_prefix ..

theorem begins_append (os : List Opt) {r r' : List Opt} (h : Begins r' r) : Begins (os ++ r') (os ++ r) := by
  induction os with
  | nil => exact h
  | cons o os ih => exact .same o ih

/-- The lines of a text and of a continuation of it. -/
theorem lines_longer (ls : List Str) (last b : Str) (hl : ∀ l ∈ ls, '\n' ∉ l) (hlast : '\n' ∉ last) :
    ∃ x ls' last', (∀ l ∈ ls', '\n' ∉ l) ∧ '\n' ∉ last' ∧ unlines ls ++ last ++ b = unlines ls' ++ last' ∧
      ∃ rest, ls' ++ [last'] = ls ++ (last ++ x) :: rest := by
  obtain ⟨lb, lastb, h1, h2, rfl⟩ := exists_lines b
  cases lb with
  | nil => exact ⟨lastb, ls, last ++ lastb, hl, by simp [hlast, h2], by simp [unlines], [], by simp⟩
  | cons l lb =>
    refine ⟨l, ls ++ (last ++ l) :: lb, lastb, ?_, h2, by simp [unlines], lb ++ [lastb], by simp⟩
    intro y hy
    rcases List.mem_append.1 hy with hy | hy
    · exact hl y hy
    · rcases List.mem_cons.1 hy with rfl | hy
      · have := h1 l (List.mem_cons_self ..)
        simp [hlast, this]
      · exact h1 y (List.mem_cons_of_mem _ hy)

end FileCut

open FileCut

/-- **C161, at a line end.** If a file is accepted, so is each beginning of it that ends with a line end, with the first of its options. -/
theorem C161_lines (desc : List OptionDesc) (au : Bool) (a b : Str) (ha : EndsWith a []) (p : Parsed) (h : parseConfigFile (a ++ b) desc au = .ok p) :
    ∃ pa os, parseConfigFile a desc au = .ok pa ∧ pa.desc = desc ∧ p.options = pa.options ++ os := by
  obtain ⟨ls, rfl, hl, hlast⟩ := ha
  obtain ⟨x, ls', last', h1, h2, h3, rest, h4⟩ := lines_longer ls [] b hl hlast
  rcases FileParts.parse_lines desc au with ⟨f, hp⟩ | ⟨it, hp⟩
  · rw [hp] at h; cases h
  · have e1 := hp ls [] hl hlast
    have e2 := hp ls' last' h1 h2
    rw [← h3, h4] at e2
    unfold unlines at e1 e2
    rw [e2] at h
    rw [e1]
    rw [FileParts.lines_append] at h ⊢
    cases hs : it.scan [] ls with
    | error f => rw [hs] at h; cases h
    | ok r =>
      rw [hs] at h
      dsimp only at h
      cases hr : it.lines r.2 (([] ++ x) :: rest) with
      | error f => rw [hr] at h; cases h
      | ok os' =>
        rw [hr] at h
        cases h
        exact ⟨_, os', rfl, rfl, by simp⟩

/-- **C161, refused.** What is wrong with whole lines stays wrong, in the same way, whatever comes after them. -/
theorem C161_refused (desc : List OptionDesc) (au : Bool) (a b : Str) (ha : EndsWith a []) (f : Fail) (h : parseConfigFile a desc au = .error f) :
    parseConfigFile (a ++ b) desc au = .error f := by
  obtain ⟨ls, rfl, hl, hlast⟩ := ha
  obtain ⟨x, ls', last', h1, h2, h3, rest, h4⟩ := lines_longer ls [] b hl hlast
  rcases FileParts.parse_lines desc au with ⟨f', hp⟩ | ⟨it, hp⟩
  · rw [hp] at h ⊢; exact h
  · have e1 := hp ls [] hl hlast
    have e2 := hp ls' last' h1 h2
    rw [← h3, h4] at e2
    unfold unlines at e1 e2
    rw [e1] at h
    rw [e2]
    rw [FileParts.lines_append] at h ⊢
    cases hs : it.scan [] ls with
    | error f' => rw [hs] at h; exact h
    | ok r =>
      rw [hs] at h
      have e4 : it.lines r.2 [[]] = .ok [] := rfl
      simp only [e4] at h
      cases h

/-- **C161, anywhere.** If a file is accepted and is cut off anywhere, in a line that does not begin with a bracket, what is left is accepted too, with the first of the
options, of which the last may lack the end of its value; or its last line has no equality sign any more, and it is refused for this. -/
theorem C161_cut (desc : List OptionDesc) (au : Bool) (a b : Str) (hb : ∀ last s, EndsWith a last → ¬ Says last ('[' :: s)) (p : Parsed)
    (h : parseConfigFile (a ++ b) desc au = .ok p) :
    (∃ pa, parseConfigFile a desc au = .ok pa ∧ pa.desc = desc ∧ Begins pa.options p.options) ∨
    ∃ last s, EndsWith a last ∧ Says last s ∧ s ≠ [] ∧ '=' ∉ s ∧
      parseConfigFile a desc au = .error (.opt { cls := .configSyntax .unrecognizedLine, style := 0, subst := [(str% "invalid_line", s), (str% "option", []), (str% "original_token", [])] }) := by
  obtain ⟨ls, last, hl, hlast, ea⟩ := exists_lines a
  have hE : EndsWith a last := ⟨ls, ea, hl, hlast⟩
  have hb' := hb last
  clear hb
  subst ea
  obtain ⟨x, ls', last', h1, h2, h3, rest, h4⟩ := lines_longer ls last b hl hlast
  rcases FileParts.parse_lines desc au with ⟨f, hp⟩ | ⟨it, hp⟩
  · rw [hp] at h; cases h
  · have e1 := hp ls last hl hlast
    have e2 := hp ls' last' h1 h2
    rw [← h3, h4] at e2
    rw [e2] at h
    rw [e1]
    rw [FileParts.lines_append] at h ⊢
    cases hs : it.scan [] ls with
    | error f => rw [hs] at h; cases h
    | ok r =>
      rw [hs] at h
      dsimp only at h ⊢
      cases hr : it.lines r.2 ((last ++ x) :: rest) with
      | error f => rw [hr] at h; cases h
      | ok os' =>
        rw [hr] at h
        cases h
        have hpre := stripLine_prefix last x
        have hne : (stripLine last).head? ≠ some '[' := by
          intro hh
          cases hc : stripLine last with
          | nil => rw [hc] at hh; cases hh
          | cons c s =>
            rw [hc] at hh; cases hh
            exact hb' s hE ((says_iff _ _).2 hc)
        rcases line_kinds (stripLine last) with h0 | ⟨m, hm⟩ | ⟨n, v, hi⟩ | ⟨k0, k1, k2⟩
        · left
          have : it.lines r.2 [last] = .ok [] := by
            rw [ConfigIter.lines, h0]; rfl
          rw [this]
          exact ⟨_, rfl, rfl, begins_append _ .nil⟩
        · rw [hm] at hne
          exact absurd rfl hne
        · left
          obtain ⟨v', hi', hv⟩ := item_longer hi hpre hne
          rw [ConfigIter.lines, line_configItem it r.2 hi'] at hr
          rw [ConfigIter.lines, line_configItem it r.2 hi]
          by_cases hc : it.allowed (r.2 ++ n) = false ∧ it.allowUnregistered = false
          · rw [if_pos hc] at hr; cases hr
          · rw [if_neg hc] at hr ⊢
            dsimp only at hr ⊢
            cases hq : it.lines r.2 rest with
            | error f => rw [hq] at hr; cases hr
            | ok q =>
              rw [hq] at hr
              cases hr
              exact ⟨_, rfl, rfl, begins_append _ (.shorter _ _ _ _ hv)⟩
        · right
          refine ⟨last, stripLine last, hE, (says_iff _ _).2 rfl, k0, k2, ?_⟩
          rw [ConfigIter.lines, line_neither it r.2 k0 k1 k2]
          rfl

/-- **C161, brackets.** A line that begins with a bracket may be cut to something else: this file is accepted, and reading its first two characters is
undefined behaviour. -/
theorem C161_bracket : ∃ (desc : List OptionDesc) (au : Bool) (a b : Str) (p : Parsed),
    parseConfigFile (a ++ b) desc au = .ok p ∧ parseConfigFile a desc au = .error (.ub .emptySection) :=
  ⟨[], true, str% "[]", str% "=1", _, rfl, rfl⟩

/-- Cut in the middle of a value. -/
example : ∃ pa, parseConfigFile (str% "x = 1\ny = 12") [] true = .ok pa ∧
    Begins pa.options [itemOption (str% "x") (str% "1") true, itemOption (str% "y") (str% "123") true] :=
  ⟨_, rfl, .same _ (.shorter _ _ _ _ ⟨str% "3", rfl⟩)⟩

example : parseConfigFile (str% "x = 1\ny = 123 # no\n[a]\nz=") [] true =
    .ok { desc := [], options := [itemOption (str% "x") (str% "1") true, itemOption (str% "y") (str% "123") true, itemOption (str% "a.z") [] true] } := rfl

example : EndsWith (str% "x = 1\ny") (str% "y") := ⟨[str% "x = 1"], rfl, by decide, by decide⟩

end PO
