import Verif.Spec.Verbatim
/-
Text of a wide command line.
-/
namespace PO.Spec

/-- `v` is written in the wide tokens `args`: as a token, after the (first) equal sign of one, or after the letters of a short option. -/
inductive WQuoted (args : List WStr) (v : WStr) : Prop
  | token (h : v ∈ args)
  | afterEq (name : WStr) (h : name ++ '='.toNat :: v ∈ args) (hn : '='.toNat ∉ name) (hv : v ≠ [])
  | afterLetters (lead : Nat) (letters : WStr) (h : lead :: letters ++ v ∈ args) (hl : letters ≠ []) (hv : v ≠ [])
      (hs : lead = '-'.toNat ∨ lead = '/'.toNat)

/-- `t` is a token of `args`, or a disguised long option with its dashes completed. -/
inductive WOnRecord (args : List WStr) (t : WStr) : Prop
  | token (h : t ∈ args)
  | disguised (lead : Nat) (rest : WStr) (h : lead :: rest ∈ args) (hl : lead = '-'.toNat ∨ lead = '/'.toNat)
      (e : t = '-'.toNat :: '-'.toNat :: rest)

/-- No declared option has a letter outside ASCII, and undeclared options are refused. -/
def AsciiLetters (c : Cmdline) : Prop := c.allowUnregistered = false ∧ ∀ a : Char, 128 ≤ a.toNat → Unknown c ['-', a]

/-- The tokens that can be short options are ASCII. -/
def AsciiShort (args : List WStr) : Prop :=
  ∀ lead r, lead :: r ∈ args → (lead = '-'.toNat ∧ r.head? ≠ some '-'.toNat ∨ lead = '/'.toNat) → ∀ x ∈ r, x < 128

end PO.Spec
