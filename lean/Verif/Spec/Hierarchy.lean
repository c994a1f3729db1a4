import Verif.Model.Hierarchy
import Verif.Spec.Several
/-
What the comments of example/options_heirarchy.cpp promise: the sources in the order of precedence.
-/
namespace PO.Spec

/-- What the files with these names, one after the other, say; files that cannot be opened say nothing. -/
inductive FilesSay (env : Env) (files : Str → Option Str) : List Str → List (List Opt) → Prop
  | nil : FilesSay env files [] []
  | missing {n ns fs} (h : files n = none) (t : FilesSay env files ns fs) : FilesSay env files (n :: ns) fs
  | read {n ns fs text p} (h : files n = some text)
      (hp : parseConfigFile text (Hierarchy.configOnlyOptions env ++ Hierarchy.commonOptions env) true = .ok p) (t : FilesSay env files ns fs) :
      FilesSay env files (n :: ns) (p.options :: fs)

/-- The sources: the command line, the environment, the files named by `--config`, and `default.cfg`. -/
def SourcesSay (env : Env) (args environ : List Str) (files : Str → Option Str) (srcs : List (List Opt)) : Prop :=
  ∃ pc pe fs, Hierarchy.parseCommandLine env args = .ok pc ∧ parseEnvironment environ (Hierarchy.commonOptions env) Hierarchy.mapper = .ok pe ∧
    FilesSay env files ((occurrences pc.options (str% "config")).flatMap (·.value) ++ [str% "default.cfg"]) fs ∧
    srcs = pc.options :: pe.options :: fs

/-- The first source that mentions `name` does so once, with the tokens `toks`. -/
def FirstSays (srcs : List (List Opt)) (name : Str) (toks : List Str) : Prop :=
  ∃ before os after, srcs = before ++ os :: after ∧ (∀ b ∈ before, ¬ Mentions b name) ∧ (occurrences os name).map (·.value) = [toks]

/-- No source mentions `name`. -/
def NoneSays (srcs : List (List Opt)) (name : Str) : Prop := ∀ os ∈ srcs, ¬ Mentions os name

/-- The words for yes and no, in any letter case. -/
def SaysBool (toks : List Str) (b : Bool) : Prop :=
  ∃ w, (toks = [] ∧ w = [] ∨ toks = [w]) ∧
    (b = true ∧ w.map Char.toLower ∈ [[], str% "on", str% "yes", str% "1", str% "true"] ∨ b = false ∧ w.map Char.toLower ∈ [str% "off", str% "no", str% "0", str% "false"])

end PO.Spec
