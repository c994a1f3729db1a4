import Verif.Spec.Grammar
/-
Text of a command line.
-/
namespace PO.Spec

/-- `v` is written in `args`: as a token, after the equal sign of a long option, after the letters of a short option, or it is what
an additional parser made of a token. -/
inductive Quoted (c : Cmdline) (args : List Str) (v : Str) : Prop
  | token (h : v ∈ args)
  | afterEq (name : Str) (h : name ++ '=' :: v ∈ args) (hn : '=' ∉ name) (hv : v ≠ [])
      (hl : ['-', '-'] <+: name ∧ Enabled c Style.allowLong ∨
        (name.head? = some '-' ∨ name.head? = some '/') ∧ Enabled c Style.allowLongDisguise)
  | afterLetters (lead : Char) (letters : Str) (a : Char) (h : lead :: letters ++ a :: v ∈ args) (hv : v ≠ [])
      (hs : lead = '-' ∧ (letters ++ [a]).head? ≠ some '-' ∧ Enabled c Style.allowDashForShort ∨
        lead = '/' ∧ letters = [] ∧ Enabled c Style.allowSlashForShort)
      (ha : Enabled c Style.allowShort) (hd : (∃ d, Denotes c ['-', a] d) ∨ Unknown c ['-', a] ∧ c.allowUnregistered = true)
  | additional (f : Str → Str × Str) (tok : Str) (hf : c.additional = some f) (h : tok ∈ args) (hv : v ≠ []) (e : (f tok).2 = v)

/-- `t` is a token of `args`, or a disguised long option with its dashes completed. -/
inductive OnRecord (c : Cmdline) (args : List Str) (t : Str) : Prop
  | token (h : t ∈ args)
  | disguised (lead : Char) (rest : Str) (h : lead :: rest ∈ args) (hl : lead = '-' ∨ lead = '/') (hd : Enabled c Style.allowLongDisguise)
      (e : t = '-' :: '-' :: rest)

end PO.Spec
