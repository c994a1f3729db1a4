import Verif.Model.Edit
import Verif.Spec.StoreGrammar
/-
Specification vocabulary for maps that the program changes itself (C139): what happens to one name.
-/
namespace PO.Spec
open Edit

/-- The program performs these actions, none of which throws. -/
inductive Performs : VarMap → List Act → VarMap → Prop
  | done (m : VarMap) : Performs m [] m
  | next {m m1 m2 : VarMap} {act : Act} {rest : List Act} (h : perform m act = (m1, none)) (t : Performs m1 rest m2) : Performs m (act :: rest) m2

/-- The explicit value in a record. -/
def explicitIn : Option VarValue → Any
  | some r => if r.defaulted = true then none else r.v
  | none => none

/-- The record of a name (if it has one), and whether sources are still heard about it, before and after some actions. A source that mentions the name, if it is heard, continues the
explicit value there is; it is the last one that is heard unless the option composes. Any other source only supplies a default if there is no record.
Inserting, erasing and changing are about the record alone: they do not make sources heard again. -/
inductive Course (name : Str) : List Act → Option VarValue → Bool → Option VarValue → Bool → Prop
  | done (r heard) : Course name [] r heard r heard
  | heard {q u rest r r' h' d a} (hm : Mentions q.options name) (hd : candidates q.desc name = [d])
      (ha : parseAll d.semantic u (explicitIn r) ((occurrences q.options name).map (·.value)) = .ok a)
      (t : Course name rest (some { v := a, defaulted := false, semantic := some d.semantic }) d.semantic.isComposing r' h') :
      Course name (.store q u :: rest) r true r' h'
  | unheard {q u rest r heard r' h'} (hm : ¬ Mentions q.options name ∨ heard = false)
      (t : Course name rest (match r with
        | some v => some v
        | none => (firstDefault q.desc name).map fun p => { v := p.2, defaulted := true, semantic := some p.1 }) heard r' h') :
      Course name (.store q u :: rest) r heard r' h'
  | inserted {v dflt rest heard r' h'} (t : Course name rest (some { v, defaulted := dflt }) heard r' h') :
      Course name (.insert name v dflt :: rest) none heard r' h'
  | present {v dflt rest x heard r' h'} (t : Course name rest (some x) heard r' h') : Course name (.insert name v dflt :: rest) (some x) heard r' h'
  | erased {rest r heard r' h'} (t : Course name rest none heard r' h') : Course name (.erase name :: rest) r heard r' h'
  | changed {v rest r heard r' h'} (t : Course name rest (r.map fun x => { x with v }) heard r' h') : Course name (.change name v :: rest) r heard r' h'
  | cleared {rest r heard r' h'} (t : Course name rest none true r' h') : Course name (.clear :: rest) r heard r' h'
  | other {act rest r heard r' h'} (hn : ∃ n, n ≠ name ∧ ((∃ v d, act = .insert n v d) ∨ act = .erase n ∨ ∃ v, act = .change n v))
      (t : Course name rest r heard r' h') : Course name (act :: rest) r heard r' h'

/-- A source was stored that gave the name a value for good: its option does not compose, and the map was not cleared since. -/
def SettledBy (name : Str) (acts : List Act) : Prop :=
  ∃ before q u after d, acts = before ++ .store q u :: after ∧ Mentions q.options name ∧ candidates q.desc name = [d] ∧
    d.semantic.isComposing = false ∧ .clear ∉ after

end PO.Spec
