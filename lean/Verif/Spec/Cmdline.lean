import Verif.Model.Cmdline
import Verif.Spec.Lookup
/-
The surface syntax of options, without reference to the parsing code.
-/
namespace PO.Spec

/-- Does the style have this feature? -/
def Enabled (c : Cmdline) (bit : Nat) : Prop := active c.style bit = true

/-- The declared option a name given on the command line stands for: the only exact match, or the only
approximate one if there is no exact one. -/
def Denotes (c : Cmdline) (name : Str) (d : OptionDesc) : Prop :=
  let li := active c.style Style.longCaseInsensitive
  let si := active c.style Style.shortCaseInsensitive
  exacts c.desc name li si = [d] ∨
    exacts c.desc name li si = [] ∧ approximates c.desc name (active c.style Style.allowGuessing) li si = [d]

/-- A name given on the command line that matches no declared option. -/
def Unknown (c : Cmdline) (name : Str) : Prop :=
  ∀ d ∈ c.desc, ¬ Exact d name (active c.style Style.longCaseInsensitive) (active c.style Style.shortCaseInsensitive) ∧
    ¬ Approximate d name (active c.style Style.allowGuessing) (active c.style Style.longCaseInsensitive)

/-- The canonical name of an option: its first long name, if that is not a wildcard, or its short name if there is no
long one. -/
def CanonicalName (d : OptionDesc) (k : Str) : Prop :=
  (d.longNames.head? = some k ∧ '*' ∉ k) ∨ (d.longNames = [] ∧ d.shortName = k)

/-- Canonical names identify options. -/
def Identified (c : Cmdline) : Prop :=
  ∀ d ∈ c.desc, ∀ k, CanonicalName d k →
    exacts c.desc k (active c.style Style.longCaseInsensitive) (active c.style Style.shortCaseInsensitive) = [d]

/-- `tok` written for an option: the option is given under `name`, with `value` attached to it (in the
same token); `tokens` are the original tokens recorded for it. -/
inductive Written (c : Cmdline) (tok : Str) : (name : Str) → (value tokens : List Str) → Prop
  /-- recognised by the additional parser -/
  | additional (f : Str → Str × Str) (hf : c.additional = some f) (hn : (f tok).1 ≠ []) :
      Written c tok (f tok).1 (if (f tok).2 = [] then [] else [(f tok).2]) []
  /-- `--name=value` -/
  | longEq (name v : Str) (hs : Enabled c Style.allowLong) (ht : tok = '-' :: '-' :: name ++ '=' :: v)
      (hn : '=' ∉ name) (hv : v ≠ []) : Written c tok name [v] [tok]
  /-- `--name` -/
  | long (name : Str) (hs : Enabled c Style.allowLong) (ht : tok = '-' :: '-' :: name)
      (hn : '=' ∉ name) (h0 : name ≠ []) : Written c tok name [] [tok]
  /-- `-name=value` or `/name=value`; recorded with two dashes -/
  | disguisedEq (lead : Char) (name v : Str) (hs : Enabled c Style.allowLongDisguise) (hl : lead = '-' ∨ lead = '/')
      (ht : tok = lead :: name ++ '=' :: v) (hn : '=' ∉ name) (hv : v ≠ []) :
      Written c tok name [v] ['-' :: '-' :: name ++ '=' :: v]
  /-- `-name` or `/name`; recorded with two dashes -/
  | disguised (lead : Char) (name : Str) (hs : Enabled c Style.allowLongDisguise) (hl : lead = '-' ∨ lead = '/')
      (ht : tok = lead :: name) (hn : '=' ∉ name) (h0 : name ≠ []) : Written c tok name [] ['-' :: '-' :: name]
  /-- a letter of `-abc` that is not the last option of the group -/
  | grouped (pre : Str) (a : Char) (post : Str) (hs : Enabled c Style.allowShort ∧ Enabled c Style.allowDashForShort)
      (hg : Enabled c Style.allowSticky) (ht : tok = '-' :: pre ++ a :: post) (hp : post ≠ []) : Written c tok ['-', a] [] []
  /-- the last letter of `-abc` -/
  | short (pre : Str) (a : Char) (hs : Enabled c Style.allowShort ∧ Enabled c Style.allowDashForShort)
      (ht : tok = '-' :: pre ++ [a]) (hg : pre ≠ [] → Enabled c Style.allowSticky) : Written c tok ['-', a] [] [tok]
  /-- the last option of `-abcvalue` -/
  | shortEq (pre : Str) (a : Char) (v : Str) (hs : Enabled c Style.allowShort ∧ Enabled c Style.allowDashForShort)
      (ht : tok = '-' :: pre ++ a :: v) (hg : pre ≠ [] → Enabled c Style.allowSticky) (hv : v ≠ []) : Written c tok ['-', a] [v] [tok]
  /-- `/a` -/
  | slash (a : Char) (hs : Enabled c Style.allowShort ∧ Enabled c Style.allowSlashForShort) (ht : tok = ['/', a]) :
      Written c tok ['-', a] [] [tok]
  /-- `/avalue` -/
  | slashEq (a : Char) (v : Str) (hs : Enabled c Style.allowShort ∧ Enabled c Style.allowSlashForShort)
      (ht : tok = '/' :: a :: v) (hv : v ≠ []) : Written c tok ['-', a] [v] [tok]

/-- The declared option with this letter as short name, when a group of short options is taken apart: the only one. -/
def DenotesShort (c : Cmdline) (a : Char) (d : OptionDesc) : Prop :=
  exacts c.desc ['-', a] false (active c.style Style.shortCaseInsensitive) = [d]

/-- No declared option has this letter as short name. -/
def UnknownShort (c : Cmdline) (a : Char) : Prop :=
  ∀ d ∈ c.desc, ¬ Exact d ['-', a] false (active c.style Style.shortCaseInsensitive) ∧ ¬ Approximate d ['-', a] false false

/-- The additional parser leaves this token alone. -/
def Unclaimed (c : Cmdline) (tok : Str) : Prop := ∀ f, c.additional = some f → (f tok).1 = []

/-- A token that an option needing a value will take as such. -/
inductive ValueLike (c : Cmdline) (v : Str) : Prop
  /-- does not look like an option -/
  | plain (h1 : v.head? ≠ some '-') (h2 : v.head? = some '/' → ¬ Enabled c Style.allowSlashForShort)
  /-- looks like a short option, which does not exist; for example a negative number -/
  | short (x : Char) (t : Str) (hv : v = '-' :: x :: t) (hx : x ≠ '-') (hu : UnknownShort c x) (hk : Unknown c v)
      (hd : ¬ Enabled c Style.allowLongDisguise)
  /-- looks like a long option, but no declared name has the dashes in it -/
  | long (s : Str) (hv : v = '-' :: '-' :: s) (hs : s ≠ []) (he : ∀ name, '=' ∉ name → s ≠ name ++ ['=']) (hk : Unknown c v)
  /-- a single dash, or two -/
  | dash (hv : v = ['-'] ∨ v = ['-', '-'])

end PO.Spec
