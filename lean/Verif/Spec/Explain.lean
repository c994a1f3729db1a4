import Verif.Spec.Order
import Verif.Spec.Refusal
import Verif.Spec.Message
/-
What the exceptions of the command line parser say.
-/
namespace PO.Spec

instance (c : Cmdline) (bit : Nat) : Decidable (Enabled c bit) := inferInstanceAs (Decidable (_ = _))

/-- A name without the dashes and slashes before it; if there is nothing else, these. -/
def undashed (s : Str) : Str :=
  match s.dropWhile (fun c => c = '-' ∨ c = '/') with
  | [] => s
  | r => r

/-- How an option is displayed. One that cannot be identified, or has no name: by the token. Otherwise by its name with the dashes of the
long options, if these are enabled, or else by the letter in the token. -/
def displayed (c : Cmdline) (cls : ErrClass) (name tok : Str) : Str :=
  match cls with
  | .unknownOption | .ambiguousOption _ => tok
  | _ =>
    if name = [] then tok
    else if Enabled c Style.allowLong then '-' :: '-' :: undashed name
    else if Enabled c Style.allowLongDisguise then '-' :: undashed name
    else if tok = [] ∨ ¬ Enabled c Style.allowShort then undashed name
    else if Enabled c Style.allowDashForShort then '-' :: (undashed tok).take 1
    else if Enabled c Style.allowSlashForShort then '/' :: (undashed tok).take 1
    else undashed name

/-- The dashes shown before the alternatives of an ambiguous name. -/
def dashes (c : Cmdline) : Str :=
  if Enabled c Style.allowLong then ['-', '-'] else if Enabled c Style.allowLongDisguise then ['-'] else []

/-- The text of an exception. The alternatives of an ambiguous name are listed in order and without repetition, if there are long
options at all. -/
inductive Tells (c : Cmdline) : ErrClass → Str → Str → Str → Prop
  | ambiguous {alts name tok} (sorted : List Str) (hs : sorted.Pairwise Earlier) (hm : ∀ a, a ∈ sorted ↔ a ∈ alts)
      (hl : Enabled c Style.allowLong ∨ Enabled c Style.allowLongDisguise ∨
        ¬ (Enabled c Style.allowShort ∧ (Enabled c Style.allowDashForShort ∨ Enabled c Style.allowSlashForShort))) :
      Tells c (.ambiguousOption alts) name tok (str% "option '" ++ tok ++ str% "' is ambiguous and matches " ++
        (if alts.length > 1 ∧ sorted.length = 1 then str% "different versions of " else []) ++ alternativesText (dashes c) sorted)
  | short {alts name tok} (h1 : ¬ Enabled c Style.allowLong) (h2 : ¬ Enabled c Style.allowLongDisguise)
      (h3 : Enabled c Style.allowShort ∧ (Enabled c Style.allowDashForShort ∨ Enabled c Style.allowSlashForShort)) :
      Tells c (.ambiguousOption alts) name tok (str% "option '" ++ tok ++ str% "' is ambiguous")
  | other {cls name tok} (h : ∀ alts, cls ≠ .ambiguousOption alts) : Tells c cls name tok (message (displayed c cls name tok) [] [] cls)

end PO.Spec
