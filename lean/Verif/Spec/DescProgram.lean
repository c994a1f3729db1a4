import Verif.Model.DescProgram
import Verif.Spec.Programs
import Verif.Spec.Usual
/-
What example/options_description.cpp prints.
-/
namespace PO.Spec

/-- What is written about the option is a number, and is written at most the first time it is given. -/
def Repeatable (env : Env) (os : List Opt) (name : Str) : Prop := IsNumber env 0 os name ∧ ∀ y ∈ (tokensOf os name).tail, y = []

/-- The number of an option with implicit value: `implicit` if the last occurrence has no value. -/
inductive Number (env : Env) (implicit : Option Int) (dflt : Option Int) (os : List Opt) (name : Str) : Int → Prop
  | absent {n} (h : ¬ Mentions os name) (hd : dflt = some n) : Number env implicit dflt os name n
  | written {t n} (h : tokensOf os name = [[t]]) (hn : env.lex 0 t = some n) : Number env implicit dflt os name n
  | bare {n} (h : (tokensOf os name).getLast? = some []) (hi : implicit = some n) : Number env implicit dflt os name n

/-- The line about verbosity. -/
inductive VerboseLine (env : Env) (print : Int → Str) (os : List Opt) : Str → Prop
  | none (h : ¬ Mentions os (str% "verbose")) : VerboseLine env print os []
  | some {n} (h : Number env (some 1) none os (str% "verbose") n) : VerboseLine env print os (str% "Verbosity enabled.  Level is " ++ print n ++ ['\n'])

/-- example/options_description.cpp -/
inductive DescPrints (env : Env) (print : Int → Str) (help : Str) (os : List Opt) : Str → Prop
  | help (h : Mentions os (str% "help")) : DescPrints env print help os (str% "Usage: options_description [options]\n" ++ help)
  | report {inc inp verb level port} (hh : ¬ Mentions os (str% "help"))
      (hinc : ListLine (str% "Include paths are: ") (Mentions os (str% "include-path")) (said os (str% "include-path")) inc)
      (hinp : ListLine (str% "Input files are: ") (Mentions os (str% "input-file")) (said os (str% "input-file")) inp)
      (hverb : VerboseLine env print os verb) (hlevel : Number env none (some 10) os (str% "optimization") level)
      (hport : Number env (some 1001) (some 0) os (str% "listen") port) :
      DescPrints env print help os (inc ++ inp ++ verb ++ str% "Optimization level is " ++ print level ++ ['\n'] ++ str% "Listen port is " ++ print port ++ ['\n'])

end PO.Spec
