import Verif.Spec.Order
import Verif.Spec.Config
/-
A grammar for configuration files.
-/
namespace PO.Spec

/-- Every line of `text` is so. -/
def EveryLine (text : Str) (P : Str → Prop) : Prop :=
  ∀ ls last, text = ls.flatMap (· ++ ['\n']) ++ last → (∀ l ∈ ls, '\n' ∉ l) → '\n' ∉ last → ∀ l ∈ ls ++ [last], P l

/-- White space. -/
def WhiteSpace (c : Char) : Prop := c = ' ' ∨ c = '\t' ∨ c = '\r' ∨ c = '\n'

/-- `l` is `s` with white space around it; `s` itself neither begins nor ends with white space. -/
def Padded (l s : Str) : Prop := ∃ a b, l = a ++ s ++ b ∧ (∀ c ∈ a, WhiteSpace c) ∧ (∀ c ∈ b, WhiteSpace c) ∧ Trimmed s

/-- What a line says: comment and surrounding white space removed. -/
def Says (l s : Str) : Prop := ∃ t comment, l = t ++ comment ∧ '#' ∉ t ∧ (comment = [] ∨ comment.head? = some '#') ∧ Padded t s

/-- A line `name = value`. -/
structure ConfigItem (s n v : Str) : Prop where
  notHeader : ∀ m, s ≠ '[' :: m ++ [']']
  split : ∃ a b, s = a ++ '=' :: b ∧ '=' ∉ a ∧ Padded a n ∧ Padded b v

/-- The option made of an item. -/
def itemOption (name v : Str) (unregistered : Bool) : Opt :=
  { stringKey := name, value := [v], unregistered, originalTokens := [name, v] }

/-- Lines, read in a section with the prefix `pre`, and their options. -/
inductive FileLines (desc : List OptionDesc) (au : Bool) : Str → List Str → List Opt → Prop
  | nil {pre} : FileLines desc au pre [] []
  | blank {pre l ls os} (h : Says l []) (t : FileLines desc au pre ls os) : FileLines desc au pre (l :: ls) os
  | header {pre l ls os} (s : Str) (h : Says l ('[' :: s ++ [']'])) (hs : s ≠ []) (t : FileLines desc au (sectionPrefix s) ls os) :
      FileLines desc au pre (l :: ls) os
  | known {pre l ls os} (s n v : Str) (h : Says l s) (hi : ConfigItem s n v) (ha : Accepts desc (pre ++ n)) (t : FileLines desc au pre ls os) :
      FileLines desc au pre (l :: ls) (itemOption (pre ++ n) v false :: os)
  | unknown {pre l ls os} (s n v : Str) (h : Says l s) (hi : ConfigItem s n v) (ha : ¬ Accepts desc (pre ++ n)) (hu : au = true)
      (t : FileLines desc au pre ls os) : FileLines desc au pre (l :: ls) (itemOption (pre ++ n) v true :: os)

/-- The first line at fault. -/
inductive BadLines (desc : List OptionDesc) (au : Bool) : Str → List Str → Fail → Prop
  | blank {pre l ls f} (h : Says l []) (t : BadLines desc au pre ls f) : BadLines desc au pre (l :: ls) f
  | header {pre l ls f} (s : Str) (h : Says l ('[' :: s ++ [']'])) (hs : s ≠ []) (t : BadLines desc au (sectionPrefix s) ls f) :
      BadLines desc au pre (l :: ls) f
  | item {pre l ls f} (s n v : Str) (h : Says l s) (hi : ConfigItem s n v) (ha : Accepts desc (pre ++ n) ∨ au = true) (t : BadLines desc au pre ls f) :
      BadLines desc au pre (l :: ls) f
  /-- undefined behaviour -/
  | emptyHeader {pre l ls} (h : Says l ['[', ']']) : BadLines desc au pre (l :: ls) (.ub .emptySection)
  | unknown {pre l ls} (s n v : Str) (h : Says l s) (hi : ConfigItem s n v) (ha : ¬ Accepts desc (pre ++ n)) (hu : au = false) :
      BadLines desc au pre (l :: ls) (.opt { cls := .unknownOption, style := 0, subst := [(str% "option", []), (str% "original_token", pre ++ n)] })
  | neither {pre l ls} (s : Str) (h : Says l s) (h0 : s ≠ []) (hh : ∀ m, s ≠ '[' :: m ++ [']']) (he : '=' ∉ s) :
      BadLines desc au pre (l :: ls) (.opt { cls := .configSyntax .unrecognizedLine, style := 0, subst := [(str% "invalid_line", s), (str% "option", []), (str% "original_token", [])] })

/-- `x` and `y` are stems of which one extends the other. -/
def Comparable (x y : Str) : Prop := x <+: y ∨ y <+: x

/-- The complaint about overlapping wildcards: declared names are looked at in increasing order; `s*` is the first one
whose stem is comparable to an earlier one; `y` is its neighbour, the greatest earlier stem below `s`, or the least one if there
is none below. -/
def OverlapReported (desc : List OptionDesc) (s y : Str) : Prop :=
  ∃ done rest, (done ++ (s ++ ['*']) :: rest).Pairwise Earlier ∧
    (∀ n, n ∈ done ++ (s ++ ['*']) :: rest ↔ ∃ d ∈ desc, d.firstLong = n) ∧
    (∀ a b, a ++ ['*'] ∈ done → b ++ ['*'] ∈ done → a <+: b → a = b) ∧
    (∃ x, x ++ ['*'] ∈ done ∧ Comparable x s) ∧
    y ++ ['*'] ∈ done ∧
    ((Earlier y s ∧ ∀ z, z ++ ['*'] ∈ done → Earlier z s → ¬ Earlier y z) ∨
     ((∀ z, z ++ ['*'] ∈ done → ¬ Earlier z s) ∧ ∀ z, z ++ ['*'] ∈ done → ¬ Earlier z y))

/-- How a configuration file is refused. `ls` and `last` are the lines, the last one without line end. -/
inductive FileRefused (desc : List OptionDesc) (au : Bool) (text : Str) : Fail → Prop
  | short (d : OptionDesc) (hd : d ∈ desc) (h : d.firstLong = []) :
      FileRefused desc au text (.error (str% "abbreviated option names are not permitted in options configuration files"))
  | overlap (s y : Str) (hne : ∀ d ∈ desc, d.firstLong ≠ []) (h : OverlapReported desc s y) :
      FileRefused desc au text (.error (str% "options '" ++ (s ++ ['*']) ++ str% "' and '" ++ y ++
        str% "*' will both match the same arguments from the configuration file"))
  | line {f} (ls : List Str) (last : Str) (hne : ∀ d ∈ desc, d.firstLong ≠ []) (ho : ¬ Overlap desc)
      (e : text = ls.flatMap (· ++ ['\n']) ++ last) (hls : ∀ l ∈ ls, '\n' ∉ l) (hlast : '\n' ∉ last) (h : BadLines desc au [] (ls ++ [last]) f) :
      FileRefused desc au text f

end PO.Spec
