import Verif.Model.Parsers
import Verif.Spec.Typed
import Verif.Spec.Cmdline
import Verif.Spec.ConfigGrammar
/-
A program that reads its options from several sources, and what it has to catch.
-/
namespace PO.Spec

/-- Where options are read from. -/
inductive Origin
  | commandLine (c : Cmdline) (args : List Str)
  | configFile (desc : List OptionDesc) (text : Str) (allowUnregistered : Bool)
  | environment (desc : List OptionDesc) (environ : List Str) (mapper : Str → Str)

def Origin.desc : Origin → List OptionDesc
  | .commandLine c _ => c.desc
  | .configFile desc _ _ => desc
  | .environment desc _ _ => desc

def Origin.parse : Origin → Except Fail Parsed
  | .commandLine c args => c.parse args
  | .configFile desc text au => parseConfigFile text desc au
  | .environment desc environ mapper => parseEnvironment environ desc mapper

/-- `store(parse_...(...), vm);` for each source, then `notify(vm);`: what is thrown, if anything. -/
def program : List Origin → VarMap → Option Fail
  | [], m => m.notify.2
  | s :: rest, m =>
    match s.parse with
    | .error f => some f
    | .ok p =>
      match store p m with
      | (_, some f) => some f
      | (m, none) => program rest m

/-- The exceptions that are caught as `program_options::error` (errors.hpp:38-415). -/
def LibraryException : Fail → Prop
  | .opt _ => True
  | .tooManyPositional => True
  | .invalidStyle _ => True
  | .error _ => True
  | .readingFile _ => True
  | _ => False

/-- An option declared with `value<T>` and any modifiers, or as untyped; not with `wvalue`. -/
inductive Narrow : ValueSemantic → VType → Prop
  | typed (env : Env) (t : TypedValue) (h : WellTyped t) (hw : t.wide = false) : Narrow (t.toSemantic env) t.type
  | untyped (env : Env) (zero : Bool) : Narrow (untypedValue env zero) (.scalar .str)

/-- The sources fit together, and none of them leads to undefined behaviour (C21, C27): the options are declared with `value`, a name has the same
type in all sources; reported names are not empty and not ambiguous; no line of a configuration file is `[]`; the environment is well-formed. -/
structure Tidy (srcs : List Origin) : Prop where
  declared : ∀ s ∈ srcs, ∀ d ∈ s.desc, ∃ T, Narrow d.semantic T
  sameType : ∀ name, ∃ T, ∀ s ∈ srcs, ∀ d, candidates s.desc name = [d] → Narrow d.semantic T
  commandLine : ∀ c args, .commandLine c args ∈ srcs → c.styleParser = none ∧ (∀ d ∈ c.desc, ¬ CanonicalName d []) ∧
    ∀ d ∈ c.desc, ∀ k, CanonicalName d k → (∃ d', Denotes c k d') ∨ Unknown c k
  configFile : ∀ desc text au, .configFile desc text au ∈ srcs → EveryLine text fun l => ¬ Says l (str% "[]")
  environment : ∀ desc environ mapper, .environment desc environ mapper ∈ srcs → ∀ e ∈ environ, '=' ∈ e

end PO.Spec
