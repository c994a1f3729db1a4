import Verif.Spec.Order
import Verif.Spec.Explain
import Verif.Spec.Convert
import Verif.Spec.Typed
/-
What the exceptions of `store` say.
-/
namespace PO.Spec

/-- How `store` displays an option. One that cannot be identified: by the token. Otherwise by its name, with the dashes of the style the source
was read with, if it has long options; by the letter in the token, if it has only short ones. Sources other than command lines have no style. -/
def displayedBy (pre : Nat) (cls : ErrClass) (name tok : Str) : Str :=
  match cls with
  | .unknownOption | .ambiguousOption _ => tok
  | _ =>
    if pre = Style.allowLong then '-' :: '-' :: undashed name
    else if pre = Style.allowLongDisguise then '-' :: undashed name
    else if tok = [] then undashed name
    else if pre = Style.allowDashForShort then '-' :: (undashed tok).take 1
    else if pre = Style.allowSlashForShort then '/' :: (undashed tok).take 1
    else undashed name

/-- The dashes shown before the alternatives of an ambiguous name. -/
def dashesOf (pre : Nat) : Str :=
  if pre = Style.allowLong then ['-', '-'] else if pre = Style.allowLongDisguise then ['-'] else []

/-- The text of an exception about the option `name`, given as `tok`; `value` is the text it objects to. -/
inductive StoreTells (pre : Nat) : ErrClass → Option Str → Str → Str → Str → Prop
  | ambiguous {alts name tok} (sorted : List Str) (hs : sorted.Pairwise Earlier) (hm : ∀ a, a ∈ sorted ↔ a ∈ alts)
      (hp : pre ≠ Style.allowDashForShort ∧ pre ≠ Style.allowSlashForShort) :
      StoreTells pre (.ambiguousOption alts) none name tok (str% "option '" ++ tok ++ str% "' is ambiguous and matches " ++
        (if alts.length > 1 ∧ sorted.length = 1 then str% "different versions of " else []) ++ alternativesText (dashesOf pre) sorted)
  | short {alts name tok} (hp : pre = Style.allowDashForShort ∨ pre = Style.allowSlashForShort) :
      StoreTells pre (.ambiguousOption alts) none name tok (str% "option '" ++ tok ++ str% "' is ambiguous")
  | other {cls value name tok} (h : ∀ alts, cls ≠ .ambiguousOption alts) :
      StoreTells pre cls value name tok (message (displayedBy pre cls name tok) (value.getD []) [] cls)

end PO.Spec
