import Verif.Spec.Several
import Verif.Spec.Convert
import Verif.Spec.Cmdline
import Verif.Spec.MultipleSources
import Verif.Spec.Known
/-
Options that can be given once: switches, and options with one value.
-/
namespace PO.Spec

/-- What an option wants: nothing (a switch without a type), nothing (a `bool`), or one value of a type. -/
inductive Wants
  | nothing
  | flag
  | one (st : SType)

/-- The option wants this, once. -/
inductive OnceOnly (env : Env) : ValueSemantic → Wants → Prop
  | switch : OnceOnly env (untypedValue env true) .nothing
  | flag (t : TypedValue) (ht : t.type = .scalar .bool) (hz : t.zeroTokens = true) (hm : t.multitoken = false) (hw : t.wide = false) (hi : t.implicit = none) :
      OnceOnly env (t.toSemantic env) .flag
  | one (t : TypedValue) (st : SType) (ht : t.type = .scalar st) (hz : t.zeroTokens = false) (hm : t.multitoken = false) (hw : t.wide = false)
      (hi : t.implicit = none) : OnceOnly env (t.toSemantic env) (.one st)

/-- The value that the tokens with such an option stand for. -/
inductive OnceRead (env : Env) : Wants → List Str → AVal → Prop
  | nothing : OnceRead env .nothing [] (.scalar (.str []))
  | flag : OnceRead env .flag [] (.scalar (.bool true))
  | one {st x v} (h : Converts env st (.narrow x) v) : OnceRead env (.one st) [x] (.scalar v)

/-- A parser of command lines in which every option has one name (and maybe a letter) and can be given once, without names for positional arguments. -/
structure OnceOnlyParser (env : Env) (c : Cmdline) : Prop where
  style : c.styleParser = none
  positional : c.positional = none
  identified : Identified c
  distinct : NoClash c.desc
  named : ∀ d ∈ c.desc, ∃ n, d.longNames = [n] ∧ n ≠ [] ∧ '*' ∉ n
  once : ∀ d ∈ c.desc, ∃ w, OnceOnly env d.semantic w

end PO.Spec
