import Verif.Spec.Flags
import Verif.Tests.Util
/-
For every flag of the style, command lines that show what it does, whatever the other flags are.
-/
namespace PO
namespace Cmdline

/-- A style with given flags among those that matter. -/
def ofBits (a b d e g h i j k : Bool) : Nat :=
  (if a then Style.allowLong else 0) +
    (if b then Style.allowShort else 0) +
    (if d then Style.allowDashForShort else 0) +
    (if e then Style.allowSlashForShort else 0) +
    (if g then Style.allowSticky else 0) +
    (if h then Style.allowGuessing else 0) +
    (if i then Style.longCaseInsensitive else 0) +
    (if j then Style.shortCaseInsensitive else 0) +
    (if k then Style.allowLongDisguise else 0)

theorem active_ofBits : ∀ a b d e g h i j k : Bool,
    active (ofBits a b d e g h i j k) Style.allowLong = a ∧
    active (ofBits a b d e g h i j k) Style.allowShort = b ∧
    active (ofBits a b d e g h i j k) Style.allowDashForShort = d ∧
    active (ofBits a b d e g h i j k) Style.allowSlashForShort = e ∧
    active (ofBits a b d e g h i j k) Style.allowSticky = g ∧
    active (ofBits a b d e g h i j k) Style.allowGuessing = h ∧
    active (ofBits a b d e g h i j k) Style.longCaseInsensitive = i ∧
    active (ofBits a b d e g h i j k) Style.shortCaseInsensitive = j ∧
    active (ofBits a b d e g h i j k) Style.allowLongDisguise = k := by
  decide +kernel

/-- What can be seen of a parse. -/
def seen (r : Except Fail (List Opt)) : Option (List (Str × List Str × Bool)) :=
  match r with
  | .ok os => some (os.map fun o => (o.stringKey, o.value, o.caseInsensitive))
  | .error _ => none

/-- The parsers that show what each flag does. -/
def probeLong : Cmdline := { desc := [⟨[], [str% "foo"], [], Test.unt⟩] }
def probeShort : Cmdline := { desc := [⟨['-', 'x'], [], [], Test.unt⟩, ⟨['-', 'y'], [], [], Test.unt⟩] }
def probeGuess : Cmdline := { desc := [⟨[], [str% "foo"], [], Test.unt⟩], additional := some fun _ => (str% "fo", []) }
def probeCase (n : Str) : Cmdline := { desc := [], positional := some { trailing := n } }

/-- Is the flag seen with this style? -/
def probed (c : Cmdline) (args : List Str) (s t : Nat) : Bool :=
  !decide (seen ({ c with style := s }.run args) = seen ({ c with style := t }.run args))

theorem probe_allowLong : ∀ a b d e g h i j k : Bool, probed probeLong [str% "--foo"] (ofBits a b d e g h i j k) (ofBits (!a) b d e g h i j k) = true := by
  decide +kernel

theorem probe_allowShort : ∀ a b d e g h i j k : Bool, (d) = true → probed probeShort [str% "-x"] (ofBits a b d e g h i j k) (ofBits a (!b) d e g h i j k) = true := by
  decide +kernel

theorem probe_allowShortSlash : ∀ a b d e g h i j k : Bool, (e) = true → probed probeShort [str% "/x"] (ofBits a b d e g h i j k) (ofBits a (!b) d e g h i j k) = true := by
  decide +kernel

theorem probe_allowDashForShort : ∀ a b d e g h i j k : Bool, (b) = true → probed probeShort [str% "-x"] (ofBits a b d e g h i j k) (ofBits a b (!d) e g h i j k) = true := by
  decide +kernel

theorem probe_allowSlashForShort : ∀ a b d e g h i j k : Bool, (b || k) = true → probed probeLong [str% "/foo"] (ofBits a b d e g h i j k) (ofBits a b d (!e) g h i j k) = true := by
  decide +kernel

theorem probe_allowSticky : ∀ a b d e g h i j k : Bool, (b && d) = true → probed probeShort [str% "-xy"] (ofBits a b d e g h i j k) (ofBits a b d e (!g) h i j k) = true := by
  decide +kernel

theorem probe_allowGuessing : ∀ a b d e g h i j k : Bool, probed probeGuess [str% "z"] (ofBits a b d e g h i j k) (ofBits a b d e g (!h) i j k) = true := by
  decide +kernel

theorem probe_longCaseInsensitive : ∀ a b d e g h i j k : Bool, probed (probeCase (str% "foo")) [str% "z"] (ofBits a b d e g h i j k) (ofBits a b d e g h (!i) j k) = true := by
  decide +kernel

theorem probe_shortCaseInsensitive : ∀ a b d e g h i j k : Bool, probed (probeCase (str% "f")) [str% "z"] (ofBits a b d e g h i j k) (ofBits a b d e g h i (!j) k) = true := by
  decide +kernel

theorem probe_allowLongDisguise : ∀ a b d e g h i j k : Bool, probed probeLong [str% "-foo"] (ofBits a b d e g h i j k) (ofBits a b d e g h i j (!k)) = true := by
  decide +kernel

end Cmdline
end PO
