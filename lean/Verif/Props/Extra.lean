import Verif.Model.Example
import Verif.Props.Interchange
/-
C105: what an extra parser makes of a token.
-/
namespace PO
open Spec

/-- The usual way to write the option `name` with the value `v`, none if `v` is empty. -/
def Spec.longToken (name v : Str) : Str := if v = [] then '-' :: '-' :: name else '-' :: '-' :: name ++ '=' :: v

namespace Cmdline

theorem front_extra (c : Cmdline) (f : Str → Str × Str) (hf : c.additional = some f) (tok : Str) (h0 : (f tok).1 ≠ []) :
    c.front tok = .ok [{ stringKey := (f tok).1, value := if (f tok).2 = [] then [] else [(f tok).2] }] := by
  unfold front tokParsers
  rw [hf]
  simp only [List.append_assoc, List.singleton_append]
  refine lookahead_hit _ _ _ _ ?_ (by simp)
  rw [parseAdditional]
  rw [if_neg h0]

theorem front_longToken (c : Cmdline) (hl : Enabled c Style.allowLong) (name v : Str) (h0 : name ≠ []) (hn : '=' ∉ name) (hu : Unclaimed c (longToken name v)) :
    c.front (longToken name v) = .ok [{ stringKey := name, value := if v = [] then [] else [v], originalTokens := [longToken name v] }] := by
  unfold longToken at hu ⊢
  by_cases hv : v = []
  · rw [if_pos hv] at hu ⊢
    rw [if_pos hv]
    exact c.front_long_name hl name hn h0 hu
  · rw [if_neg hv] at hu ⊢
    rw [if_neg hv]
    exact c.front_long_eq hl name v hn hv hu

end Cmdline

/-- **C105.** A token that the extra parser reads as the option `name` with the value `v` can be replaced by `--name=v`, or `--name` if `v` is
empty, anywhere an option may start: the command line is accepted or refused as before, and means the same. Whatever the parser,
and whether or not the option is declared. -/
theorem C105_extra_parser (c : Cmdline) (hs : c.styleParser = none) (hl : Enabled c Style.allowLong)
    (hne : ∀ d ∈ c.desc, ∀ name, name ≠ [] → reportedKey d name ≠ []) (f : Str → Str × Str) (hf : c.additional = some f)
    (pre rest : List Str) (r : List Opt) (hpre : c.run pre = .ok r) (hdash : ['-', '-'] ∉ pre) (tok name v : Str) (ht : f tok = (name, v))
    (h0 : name ≠ []) (hn : '=' ∉ name) (hu : Unclaimed c (longToken name v)) :
    meaning (c.run (pre ++ tok :: rest)) = meaning (c.run (pre ++ longToken name v :: rest)) := by
  obtain ⟨os, hp, _⟩ := (c.run_pass hs pre r).1 hpre
  have h1 := c.front_extra f hf tok (by rw [ht]; exact h0)
  rw [ht] at h1
  have h2 := c.front_longToken hl name v h0 hn hu
  refine Cmdline.meaning_eq (c.run_like hs pre _ _ os hp hdash (c.first_finish hs _ _ _ _ rest h1 h2 ?_))
  exact c.finishOption_like hne _ _ _ rest ⟨rfl, .inr h0⟩

/-- `@x` is `--response-file=x` (example/response_file.cpp). -/
theorem C105_response_file (c : Cmdline) (hs : c.styleParser = none) (hl : Enabled c Style.allowLong)
    (hne : ∀ d ∈ c.desc, ∀ name, name ≠ [] → reportedKey d name ≠ []) (hf : c.additional = some Example.atOption)
    (pre rest : List Str) (r : List Opt) (hpre : c.run pre = .ok r) (hdash : ['-', '-'] ∉ pre) (x : Str) (hx : x ≠ []) :
    meaning (c.run (pre ++ ('@' :: x) :: rest)) = meaning (c.run (pre ++ (str% "--response-file=" ++ x) :: rest)) := by
  have := C105_extra_parser c hs hl hne _ hf pre rest r hpre hdash ('@' :: x) (str% "response-file") x rfl (by decide) (by decide) (by
    intro g hg
    rw [hf] at hg; cases hg
    unfold longToken
    rw [if_neg hx]
    rfl)
  unfold longToken at this
  rw [if_neg hx] at this
  exact this

theorem Example.regFoo_dashes (t : Str) : (Example.regFoo ('-' :: '-' :: t)).1 = [] := by
  unfold Example.regFoo
  rw [if_neg]
  rw [findSub, if_neg (by simp [List.isPrefixOf])]
  simp

/-- `-fbar` is `--bar=true` unless `bar` starts with `no-`, and `-fno-bar` is `--bar=false` (example/custom_syntax.cpp). -/
theorem C105_gcc_style (c : Cmdline) (hs : c.styleParser = none) (hl : Enabled c Style.allowLong)
    (hne : ∀ d ∈ c.desc, ∀ name, name ≠ [] → reportedKey d name ≠ []) (hf : c.additional = some Example.regFoo)
    (pre rest : List Str) (r : List Opt) (hpre : c.run pre = .ok r) (hdash : ['-', '-'] ∉ pre) (bar : Str) (h0 : bar ≠ []) (hn : '=' ∉ bar) :
    meaning (c.run (pre ++ (str% "-fno-" ++ bar) :: rest)) = meaning (c.run (pre ++ (str% "--" ++ bar ++ str% "=false") :: rest)) ∧
    (¬ str% "no-" <+: bar →
      meaning (c.run (pre ++ (str% "-f" ++ bar) :: rest)) = meaning (c.run (pre ++ (str% "--" ++ bar ++ str% "=true") :: rest))) := by
  have hu : ∀ v, Unclaimed c (longToken bar v) := by
    intro v g hg
    rw [hf] at hg; cases hg
    unfold longToken
    split
    · exact Example.regFoo_dashes bar
    · exact Example.regFoo_dashes (bar ++ '=' :: v)
  constructor
  · exact C105_extra_parser c hs hl hne _ hf pre rest r hpre hdash _ bar (str% "false") rfl h0 hn (hu _)
  · intro hno
    refine C105_extra_parser c hs hl hne _ hf pre rest r hpre hdash _ bar (str% "true") ?_ h0 hn (hu _)
    unfold Example.regFoo
    rw [if_pos (show findSub (str% "-f" ++ bar) (str% "-f") = some 0 by simp [findSub, List.isPrefixOf]), if_neg]
    · rfl
    · intro he
      exact hno ⟨bar.drop 3, by
        have : bar.take 3 = str% "no-" := he
        rw [← this, List.take_append_drop]⟩

/-! ### The response file -/

/-- White space between the words of a response file: one separator or more. -/
def Spec.FileGap (s : Str) : Prop := s ≠ [] ∧ ∀ c ∈ s, c = ' ' ∨ c = '\n' ∨ c = '\r'

/-- A word: not empty, without separators. -/
def Spec.FileWord (w : Str) : Prop := w ≠ [] ∧ ∀ c ∈ w, c ≠ ' ' ∧ c ≠ '\n' ∧ c ≠ '\r'

/-- The text has these words, each followed by a gap; the gap after the last is optional. -/
inductive Spec.TextOf : List Str → Str → Prop
  | nil : TextOf [] []
  | last {w} (hw : FileWord w) : TextOf [w] w
  | cons {w g ws t} (hw : FileWord w) (hg : FileGap g) (h : TextOf ws t) : TextOf (w :: ws) (w ++ g ++ t)

theorem Example.words_word (cur w : Str) (hw : ∀ c ∈ w, c ≠ ' ' ∧ c ≠ '\n' ∧ c ≠ '\r') (t : Str) : Example.words cur (w ++ t) = Example.words (cur ++ w) t := by
  induction w generalizing cur with
  | nil => simp
  | cons c w ih =>
    obtain ⟨h1, h2, h3⟩ := hw c (by simp)
    rw [List.cons_append, Example.words, if_neg (by simp [h1, h2, h3]), ih _ (fun x hx => hw x (by simp [hx]))]
    simp

theorem Example.words_gap (g : Str) (hg : ∀ c ∈ g, c = ' ' ∨ c = '\n' ∨ c = '\r') (t : Str) : Example.words [] (g ++ t) = Example.words [] t := by
  induction g with
  | nil => rfl
  | cons c g ih => rw [List.cons_append, Example.words, if_pos (hg c (by simp)), if_pos rfl, ih fun x hx => hg x (by simp [hx])]

/-- The tokens of a response file are its words, whatever separates them. -/
theorem C105_words (ws : List Str) (text lead : Str) (hl : ∀ c ∈ lead, c = ' ' ∨ c = '\n' ∨ c = '\r') (h : TextOf ws text) :
    Example.words [] (lead ++ text) = ws := by
  rw [Example.words_gap lead hl]
  induction h with
  | nil => rfl
  | @last w hw =>
    have := Example.words_word [] w hw.2 []
    rw [List.append_nil] at this
    rw [this, List.nil_append, Example.words, if_neg hw.1]
  | @cons w g ws t hw hg _ ih =>
    rw [List.append_assoc, Example.words_word [] w hw.2, List.nil_append]
    obtain ⟨c, g', rfl⟩ := List.exists_cons_of_ne_nil hg.1
    rw [List.cons_append, Example.words, if_pos (hg.2 c (by simp)), if_neg hw.1, Example.words_gap g' (fun x hx => hg.2 x (by simp [hx])), ih]

/-! Examples. -/

def Ex.responseDesc : List OptionDesc :=
  [Test.od "help" Test.unt, Test.od "include-path,I" (Test.sem { Test.vvec with composing := true }), Test.od "magic" (Test.sem Test.vstr),
   Test.od "response-file" (Test.sem Test.vstr)]
def Ex.responseCmd : Cmdline := { desc := Ex.responseDesc, additional := some Example.atOption }

example : meaning (Ex.responseCmd.run [Test.L "-Ia", Test.L "@f", Test.L "x"]) =
    some [(Test.L "include-path", [Test.L "a"], -1, false, false), (Test.L "response-file", [Test.L "f"], -1, false, false), ([], [Test.L "x"], 0, false, false)] ∧
    Enabled Ex.responseCmd Style.allowLong ∧ (∃ r, Ex.responseCmd.run [Test.L "-Ia"] = .ok r) := ⟨by rfl, by unfold Enabled; decide, _, by rfl⟩

/-- `@` alone gives no value, and the next token is taken for it. -/
example : meaning (Ex.responseCmd.run [Test.L "@", Test.L "f"]) = some [(Test.L "response-file", [Test.L "f"], -1, false, false)] := by rfl

example : Spec.TextOf [Test.L "--magic", Test.L "b"] (Test.L "--magic\r\nb") :=
  .cons (w := Test.L "--magic") (g := Test.L "\r\n") ⟨by decide, by decide⟩ ⟨by decide, by decide⟩ (.last ⟨by decide, by decide⟩)

/-- The command line wins, and the include paths of the response file come after those of the command line. -/
example :
    let r := Example.responseMain Ex.responseDesc [Test.L "-Ia", Test.L "@f", Test.L "--magic=1"]
      (fun n => if n = Test.L "f" then some (Test.L "--magic 2\n-I b\n") else none)
    r.2 = none ∧ (r.1.get (Test.L "magic")).v = some (.scalar (.str (Test.L "1"))) ∧
      (r.1.get (Test.L "include-path")).v = some (.vector .str [.str (Test.L "a"), .str (Test.L "b")]) := ⟨by rfl, by rfl, by rfl⟩

end PO
