import Verif.Props.Config
import Verif.Lemmas.ConfigGrammar
import Verif.Tests.Util
/-
C64: which configuration files are read, and how the others are refused.
-/
namespace PO
open Spec

theorem noShort_cases (desc : List OptionDesc) : (∀ d ∈ desc, d.firstLong ≠ []) ∨ ∃ d ∈ desc, d.firstLong = [] := by
  by_cases h : ∃ d ∈ desc, d.firstLong = []
  · exact .inr h
  · exact .inl fun d hd he => h ⟨d, hd, he⟩

/-- **C27, part that holds:** if no line is `[]` (after stripping comments and surrounding white
space), there is no undefined behaviour, whatever the text, the declared options and the flag.
Missing: files with such a line (see `C27_negation`). -/
theorem C27_no_ub_partial (text : Str) (desc : List OptionDesc) (au : Bool) (h : EveryLine text fun l => ¬ Says l (str% "[]")) (u : UB) :
    parseConfigFile text desc au ≠ .error (.ub u) ∧ parseConfigFile text desc au ≠ .error .fuel := by
  refine no_ub text desc au (fun l hl he => ?_) u
  obtain ⟨ls, last, h1, h2, rfl⟩ := exists_lines text
  rw [getlines_unlines _ h1 _ h2] at hl
  refine h ls last rfl h1 h2 l ?_ ((says_iff l _).2 he)
  rcases List.mem_append.1 hl with hl | hl
  · simp [hl]
  · split at hl
    · cases hl
    · simp [List.mem_singleton.1 hl]

/-- Both lines of this text are in order, although the first has the brackets. -/
example : EveryLine (Test.L "[ ]\nx = [] ") fun l => ¬ Says l (str% "[]") := by
  intro ls last he h1 h2 l hl hs
  have hg := getlines_unlines ls h1 last h2
  rw [show unlines ls ++ last = _ from he.symm] at hg
  have hm : l = [] ∨ l ∈ getlines '\n' (Test.L "[ ]\nx = [] ") := by
    rw [hg]
    rcases List.mem_append.1 hl with hl | hl
    · simp [hl]
    · rw [List.mem_singleton.1 hl]
      by_cases h0 : last = [] <;> simp [h0]
  have := (says_iff l _).1 hs
  rcases hm with rfl | hm
  · revert this; decide
  · rw [show getlines '\n' (Test.L "[ ]\nx = [] ") = [Test.L "[ ]", Test.L "x = [] "] from rfl] at hm
    rcases List.mem_cons.1 hm with rfl | hm
    · revert this; decide
    · rw [List.mem_singleton.1 hm] at this; revert this; decide

/-- **C64.** A configuration file is read iff every option has a long name, the wildcards do not overlap, and the grammar derives
its lines; the result consists of the derived options. -/
theorem C64_accepted (text : Str) (desc : List OptionDesc) (au : Bool) (p : Parsed) :
    parseConfigFile text desc au = .ok p ↔
      (∀ d ∈ desc, d.firstLong ≠ []) ∧ ¬ Overlap desc ∧ ∃ ls last os, text = ls.flatMap (· ++ ['\n']) ++ last ∧
        (∀ l ∈ ls, '\n' ∉ l) ∧ '\n' ∉ last ∧ FileLines desc au [] (ls ++ [last]) os ∧ p = { desc, options := os } := by
  rcases noShort_cases desc with hne | hs
  · obtain ⟨S, h1, ⟨ho, it, h2, h3, h4⟩ | ⟨⟨s, y, hr⟩, h2⟩⟩ := make_spec desc au hne
    · unfold parseConfigFile
      simp only [h1, h2]
      constructor
      · intro h
        obtain ⟨ls, last, hl, hlast, rfl⟩ := exists_lines text
        rw [getlines_unlines _ hl _ hlast, lines_trailing] at h
        cases hh : it.lines [] (ls ++ [last]) with
        | error f => rw [hh] at h; cases h
        | ok os =>
          rw [hh] at h; cases h
          exact ⟨hne, ho, ls, last, os, rfl, hl, hlast, (lines_ok_iff it h3 h4 _ _ _).1 hh, rfl⟩
      · rintro ⟨-, -, ls, last, os, rfl, hl, hlast, hf, rfl⟩
        change (match it.lines [] (getlines '\n' (unlines ls ++ last)) with | .error f => .error f | .ok os => .ok { desc, options := os } : Except Fail Parsed) = _
        rw [getlines_unlines _ hl _ hlast, lines_trailing, (lines_ok_iff it h3 h4 _ _ _).2 hf]
    · unfold parseConfigFile
      simp only [h1, h2 s y hr]
      constructor
      · nofun
      · rintro ⟨-, ho, -⟩; exact absurd (overlapReported_overlap hr) ho
  · unfold parseConfigFile
    rw [allowedNames_error _ _ hs]
    constructor
    · nofun
    · rintro ⟨h, -⟩
      obtain ⟨d, hd, he⟩ := hs
      exact absurd he (h d hd)

/-- A configuration file is refused exactly as described: an option without long name, overlapping wildcards (with the two names
the message shows), or the first line at fault. -/
theorem C64_refused (text : Str) (desc : List OptionDesc) (au : Bool) (f : Fail) :
    parseConfigFile text desc au = .error f ↔ FileRefused desc au text f := by
  rcases noShort_cases desc with hne | hs
  · obtain ⟨S, h1, ⟨ho, it, h2, h3, h4⟩ | ⟨⟨s, y, hr⟩, h2⟩⟩ := make_spec desc au hne
    · unfold parseConfigFile
      simp only [h1, h2]
      constructor
      · intro h
        obtain ⟨ls, last, hl, hlast, rfl⟩ := exists_lines text
        rw [getlines_unlines _ hl _ hlast, lines_trailing] at h
        cases hh : it.lines [] (ls ++ [last]) with
        | ok os => rw [hh] at h; cases h
        | error f => 
          rw [hh] at h; cases h
          exact .line ls last hne ho rfl hl hlast ((lines_error_iff it h3 h4 _ _ _).1 hh)
      · rintro (⟨d, hd, he⟩ | ⟨s, y, -, hr⟩ | ⟨ls, last, -, -, rfl, hl, hlast, hf⟩)
        · exact absurd he (hne d hd)
        · exact absurd (overlapReported_overlap hr) ho
        · change (match it.lines [] (getlines '\n' (unlines ls ++ last)) with | .error f => .error f | .ok os => .ok { desc, options := os } : Except Fail Parsed) = _
          rw [getlines_unlines _ hl _ hlast, lines_trailing, (lines_error_iff it h3 h4 _ _ _).2 hf]
    · unfold parseConfigFile
      simp only [h1]
      constructor
      · rw [h2 s y hr]
        intro h; cases h
        exact .overlap s y hne hr
      · rintro (⟨d, hd, he⟩ | ⟨s, y, -, hr'⟩ | ⟨ls, last, -, ho, -⟩)
        · exact absurd he (hne d hd)
        · rw [h2 s y hr']; rfl
        · exact absurd (overlapReported_overlap hr) ho
  · unfold parseConfigFile
    rw [allowedNames_error _ _ hs]
    constructor
    · intro h; cases h
      obtain ⟨d, hd, he⟩ := hs
      exact .short d hd he
    · obtain ⟨d, hd, he⟩ := hs
      rintro (⟨d, hd, he⟩ | ⟨s, y, hne, hr⟩ | ⟨ls, last, hne, ho, -⟩)
      · rfl
      · exact absurd he (hne d hd)
      · exact absurd he (hne d hd)

/-- Lines before a fault are read as usual. -/
theorem badLines_ub {desc : List OptionDesc} {au : Bool} {pre : Str} {ls : List Str} {u : UB} (h : BadLines desc au pre ls (.ub u)) :
    u = .emptySection ∧ ∃ good l rest os, ls = good ++ l :: rest ∧ Says l ['[', ']'] ∧ FileLines desc au pre good os := by
  generalize hf : Fail.ub u = f at h
  induction h with
  | blank h t ih =>
    obtain ⟨hu, good, l, rest, os, rfl, hl, hg⟩ := ih hf
    exact ⟨hu, _ :: good, l, rest, os, rfl, hl, .blank h hg⟩
  | header s h hs t ih =>
    obtain ⟨hu, good, l, rest, os, rfl, hl, hg⟩ := ih hf
    exact ⟨hu, _ :: good, l, rest, os, rfl, hl, .header s h hs hg⟩
  | item s n v h hi ha t ih =>
    obtain ⟨hu, good, l, rest, os, rfl, hl, hg⟩ := ih hf
    rcases Classical.em (Accepts desc (_ ++ n)) with hacc | hacc
    · exact ⟨hu, _ :: good, l, rest, _, rfl, hl, .known s n v h hi hacc hg⟩
    · exact ⟨hu, _ :: good, l, rest, _, rfl, hl, .unknown s n v h hi hacc (ha.resolve_left hacc) hg⟩
  | emptyHeader h => cases hf; exact ⟨rfl, [], _, _, [], rfl, h, .nil⟩
  | unknown => cases hf
  | neither => cases hf

theorem ub_badLines {desc : List OptionDesc} {au : Bool} {pre : Str} {good : List Str} {os : List Opt} (h : FileLines desc au pre good os)
    (l : Str) (rest : List Str) (hl : Says l ['[', ']']) : BadLines desc au pre (good ++ l :: rest) (.ub .emptySection) := by
  induction h with
  | nil => exact .emptyHeader hl
  | blank h t ih => exact .blank h ih
  | header s h hs t ih => exact .header s h hs ih
  | known s n v h hi ha t ih => exact .item s n v h hi (.inl ha) ih
  | unknown s n v h hi ha hu t ih => exact .item s n v h hi (.inr hu) ih

/-- **C27, exactly.** Reading a configuration file has undefined behaviour iff, after lines that are in order, there is a line that
says `[]`. -/
theorem C27_undefined_iff (text : Str) (desc : List OptionDesc) (au : Bool) (u : UB) :
    parseConfigFile text desc au = .error (.ub u) ↔ u = .emptySection ∧
      (∀ d ∈ desc, d.firstLong ≠ []) ∧ ¬ Overlap desc ∧ ∃ ls last, text = ls.flatMap (· ++ ['\n']) ++ last ∧
        (∀ l ∈ ls, '\n' ∉ l) ∧ '\n' ∉ last ∧ ∃ good l rest os, ls ++ [last] = good ++ l :: rest ∧ Says l ['[', ']'] ∧
          FileLines desc au [] good os := by
  rw [C64_refused]
  constructor
  · intro h
    generalize hf : Fail.ub u = f at h
    cases h with
    | short => cases hf
    | overlap => cases hf
    | line ls last hne ho e hls hlast h =>
      subst hf
      obtain ⟨hu, h⟩ := badLines_ub h
      exact ⟨hu, hne, ho, ls, last, e, hls, hlast, h⟩
  · rintro ⟨rfl, hne, ho, ls, last, e, hls, hlast, good, l, rest, os, e', hl, hg⟩
    refine .line ls last hne ho e hls hlast ?_
    rw [e']
    exact ub_badLines hg l rest hl

/-- **C30, exactly.** The overlap message names the first wildcard, in the order of the names, that overlaps an earlier one, and its
neighbour among the earlier ones (which need not be one it overlaps, see `C30_negation`). -/
theorem C30_message (text : Str) (desc : List OptionDesc) (au : Bool) (hne : ∀ d ∈ desc, d.firstLong ≠ []) (s y : Str) :
    OverlapReported desc s y → parseConfigFile text desc au = .error (.error (overlapText (s ++ ['*']) y)) := by
  intro h
  rw [C64_refused]
  exact .overlap s y hne h

/-- If wildcards overlap there is a report, whatever the file contains. -/
theorem C30_reported (text : Str) (desc : List OptionDesc) (au : Bool) (hne : ∀ d ∈ desc, d.firstLong ≠ []) (ho : Overlap desc) :
    ∃ s y, OverlapReported desc s y ∧ parseConfigFile text desc au = .error (.error (overlapText (s ++ ['*']) y)) := by
  obtain ⟨S, -, ⟨h, -⟩ | ⟨⟨s, y, hr⟩, -⟩⟩ := make_spec desc au hne
  · exact absurd ho h
  · exact ⟨s, y, hr, C30_message text desc au hne s y hr⟩

/-! ### Examples -/

def configExample : List OptionDesc :=
  [Test.od "port" (Test.sem Test.vint), Test.od "net.host" (Test.sem Test.vstr), Test.od "plugin.*" (Test.sem Test.vstr)]

/-- A file with comments, sections, blanks and a wildcard name. -/
example : ∃ os, FileLines configExample false []
    [Test.L "# setup", Test.L " port = 1 2 # two", Test.L "[net]", Test.L "host=a=b", Test.L "", Test.L "[plugin.]", Test.L "x=", Test.L ""] os ∧
    os = [itemOption (Test.L "port") (Test.L "1 2") false, itemOption (Test.L "net.host") (Test.L "a=b") false,
      itemOption (Test.L "plugin.x") [] false] := by
  refine ⟨_, ?_, rfl⟩
  have hs : ∀ l s, stripLine l = s → Says l s := fun l s => (says_iff l s).2
  have hp : ∀ l s, trimWs l = s → Padded l s := fun l s => (padded_iff l s).2
  have hm : ∀ (s : Str), s.head? ≠ some '[' → ∀ m, s ≠ '[' :: m ++ [']'] := fun s h m e => h (by rw [e]; rfl)
  refine .blank (hs _ _ (by decide)) (.known (Test.L "port = 1 2") (Test.L "port") (Test.L "1 2") (hs _ _ (by decide))
    ⟨hm _ (by decide), Test.L "port ", Test.L " 1 2", by decide, by decide, hp _ _ (by decide), hp _ _ (by decide)⟩
    ⟨Test.od "port" (Test.sem Test.vint), by simp [configExample], .inl ⟨by decide, by decide⟩⟩ ?_)
  refine .header (Test.L "net") (hs _ _ (by decide)) (by decide) ?_
  refine .known (Test.L "host=a=b") (Test.L "host") (Test.L "a=b") (hs _ _ (by decide))
    ⟨hm _ (by decide), Test.L "host", Test.L "a=b", by decide, by decide, hp _ _ (by decide), hp _ _ (by decide)⟩
    ⟨Test.od "net.host" (Test.sem Test.vstr), by simp [configExample], .inl ⟨by decide, by decide⟩⟩ ?_
  refine .blank (hs _ _ (by decide)) (.header (Test.L "plugin.") (hs _ _ (by decide)) (by decide) ?_)
  refine .known (Test.L "x=") (Test.L "x") [] (hs _ _ (by decide))
    ⟨hm _ (by decide), Test.L "x", [], by decide, by decide, hp _ _ (by decide), hp _ _ (by decide)⟩
    ⟨Test.od "plugin.*" (Test.sem Test.vstr), by simp [configExample], .inr ⟨Test.L "plugin.", by decide, by decide, by decide⟩⟩ ?_
  exact .blank (hs _ _ (by decide)) .nil

example : ∃ ls last os, Test.L "[net]\nhost = h\n" = ls.flatMap (· ++ ['\n']) ++ last ∧ (∀ l ∈ ls, '\n' ∉ l) ∧ '\n' ∉ last ∧
    FileLines configExample false [] (ls ++ [last]) os ∧
    ({ desc := configExample, options := [itemOption (Test.L "net.host") (Test.L "h") false] } : Parsed) = { desc := configExample, options := os } :=
  ((C64_accepted (Test.L "[net]\nhost = h\n") configExample false _).1 rfl).2.2

/-- An unknown name in a section is reported with its full name. -/
example : FileRefused configExample false (Test.L "port=1\n[net]\nporta=2\n=")
    (.opt { cls := .unknownOption, style := 0, subst := [(Test.L "option", []), (Test.L "original_token", Test.L "net.porta")] }) :=
  (C64_refused _ _ _ _).1 rfl

/-- A line without `=` is reported as a whole. -/
example : FileRefused configExample false (Test.L "port=1\n nonsense # here")
    (.opt { cls := .configSyntax .unrecognizedLine, style := 0,
            subst := [(Test.L "invalid_line", Test.L "nonsense"), (Test.L "option", []), (Test.L "original_token", [])] }) :=
  (C64_refused _ _ _ _).1 rfl

example : ∃ s y, OverlapReported [Test.od "ab*" Test.unt, Test.od "a*" Test.unt] s y :=
  let ⟨s, y, h, _⟩ := C30_reported [] [Test.od "ab*" Test.unt, Test.od "a*" Test.unt] false (by decide)
    ⟨Test.od "a*" Test.unt, by simp, Test.od "ab*" Test.unt, by simp, Test.L "a", Test.L "ab", by decide, by decide, by decide, by decide⟩
  ⟨s, y, h⟩

end PO
