import Verif.Spec.FileParts
import Verif.Spec.StoreGrammar
/-
Leaving names out of a source, for C164.
-/
namespace PO.LeaveOut
open Spec

/-- Lines, read in a section with the prefix `pre`, and the same lines without those that set a name that is not kept. -/
inductive FewerLines (keep : Str → Bool) : Str → List Str → List Str → Prop
  | nil {pre} : FewerLines keep pre [] []
  | blank {pre l ls ls'} (h : Says l []) (t : FewerLines keep pre ls ls') : FewerLines keep pre (l :: ls) (l :: ls')
  | header {pre l ls ls'} (s : Str) (h : Says l ('[' :: s ++ [']'])) (t : FewerLines keep (sectionPrefix s) ls ls') : FewerLines keep pre (l :: ls) (l :: ls')
  | kept {pre l ls ls'} (s n v : Str) (h : Says l s) (hi : ConfigItem s n v) (hk : keep (pre ++ n) = true) (t : FewerLines keep pre ls ls') :
      FewerLines keep pre (l :: ls) (l :: ls')
  | left {pre l ls ls'} (s n v : Str) (h : Says l s) (hi : ConfigItem s n v) (hk : keep (pre ++ n) = false) (t : FewerLines keep pre ls ls') :
      FewerLines keep pre (l :: ls) ls'

/-- The entries of an environment, and those whose variables stand for names that are kept. -/
inductive FewerVariables (mapper : Str → Str) (keep : Str → Bool) : List Str → List Str → Prop
  | nil : FewerVariables mapper keep [] []
  | kept {es es'} (n v : Str) (h : '=' ∉ n) (hk : keep (mapper n) = true) (t : FewerVariables mapper keep es es') :
      FewerVariables mapper keep ((n ++ '=' :: v) :: es) ((n ++ '=' :: v) :: es')
  | left {es es'} (n v : Str) (h : '=' ∉ n) (hk : keep (mapper n) = false) (t : FewerVariables mapper keep es es') :
      FewerVariables mapper keep ((n ++ '=' :: v) :: es) es'

end PO.LeaveOut
