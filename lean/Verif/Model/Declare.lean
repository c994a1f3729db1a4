import Verif.Model.Desc
/-
Declaring options, statement by statement: the two `add` of options_description, on objects that may be the same.
-/
namespace PO
namespace OptionsDesc

/-- `belong_to_group.back() = true` (src/options_description.cpp:335). -/
def setBack (o : OptionsDesc) : OptionsDesc := { o with belong := o.belong.dropLast ++ [true] }

/-- The loop of `add(const options_description& desc)` (src/options_description.cpp:333-336) from index `i` on. If `desc` is `*this`
(`same`), then `desc.m_options` is the vector that grows; otherwise it is `g`. `none`: not finished after `fuel` rounds. -/
def addLoop (same : Bool) (g : List OptionDesc) : Nat → Nat → OptionsDesc → Option OptionsDesc
  | fuel, i, o =>
    match (if same then o.options else g)[i]? with
    | none => some o
    | some d =>
      match fuel with
      | 0 => none
      | fuel + 1 => addLoop same g fuel (i + 1) (o.addOption d).setBack

/-- `add(const options_description& desc)` (src/options_description.cpp:327-339): a copy of `desc` becomes a group, then the loop.
`same`: `&desc == this`. -/
def addDesc (same : Bool) (fuel : Nat) (o g : OptionsDesc) : Option OptionsDesc :=
  addLoop same g.options fuel 0 { o with groups := o.groups ++ [g] }

end OptionsDesc
end PO
