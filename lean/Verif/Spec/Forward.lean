import Verif.Spec.Grammar
/-
Which command lines can be taken apart into what is recognised and what is passed on (C89).
-/
namespace PO.Spec

/-- A group of short options of which some are known and some are not. -/
def MixedGroup (c : Cmdline) (items : List Item) : Prop :=
  (∃ i ∈ items, i.name ≠ [] ∧ Unknown c i.name) ∧ ∃ i ∈ items, i.name ≠ [] ∧ ¬ Unknown c i.name

/-- No option on the command line is written in such a group. -/
inductive Unmixed (c : Cmdline) : List Str → Prop
  | nil : Unmixed c []
  | plain {tok rest} (h : Plain c tok) (hd : tok ≠ ['-', '-']) (t : Unmixed c rest) : Unmixed c (tok :: rest)
  | terminator {rest} (h : Unclaimed c ['-', '-']) : Unmixed c (['-', '-'] :: rest)
  | option {tok items taken os rest} (h : Spells c tok items) (hc : CompletesAll c items taken os) (hm : ¬ MixedGroup c items) (t : Unmixed c rest) :
      Unmixed c (tok :: taken ++ rest)

/-- The tokens behind the terminator are `b`. -/
inductive Behind (c : Cmdline) (b : List Str) : List Str → Prop
  | here (h : Unclaimed c ['-', '-']) : Behind c b (['-', '-'] :: b)
  | plain {tok rest} (h : Plain c tok) (hd : tok ≠ ['-', '-']) (t : Behind c b rest) : Behind c b (tok :: rest)
  | option {tok items taken os rest} (h : Spells c tok items) (hc : CompletesAll c items taken os) (t : Behind c b rest) : Behind c b (tok :: taken ++ rest)

end PO.Spec
