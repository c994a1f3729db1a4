import Verif.Model.Programs
import Verif.Spec.OnceOnly
/-
What example/first.cpp, example/option_groups.cpp and example/real.cpp print.
-/
namespace PO.Spec

/-- What the source says about `name` is a number of the type `ty`. -/
def IsNumber (env : Env) (ty : Nat) (os : List Opt) (name : Str) : Prop := ∀ t ∈ said os name, ∃ n, env.lex ty t = some n

/-- example/first.cpp -/
inductive FirstPrints (env : Env) (print : Int → Str) (help : Str) (os : List Opt) : Str → Prop
  | help (h : Mentions os (str% "help")) : FirstPrints env print help os (help ++ ['\n'])
  | level {t n} (hh : ¬ Mentions os (str% "help")) (h : said os (str% "compression") = [t]) (hn : env.lex 0 t = some n) :
      FirstPrints env print help os (str% "Compression level was set to " ++ print n ++ str% ".\n")
  | unset (hh : ¬ Mentions os (str% "help")) (h : ¬ Mentions os (str% "compression")) : FirstPrints env print help os (str% "Compression level was not set.\n")

/-- example/option_groups.cpp: the exit code and the text. -/
inductive GroupsPrints (env : Env) (print : Int → Str) (texts : Programs.GroupTexts) (os : List Opt) : Nat → Str → Prop
  | help (h : Mentions os (str% "help")) : GroupsPrints env print texts os 0 texts.visible
  | gui (hh : ¬ Mentions os (str% "help")) (h : said os (str% "help-module") = [str% "gui"]) : GroupsPrints env print texts os 0 texts.gui
  | backend (hh : ¬ Mentions os (str% "help")) (h : said os (str% "help-module") = [str% "backend"]) : GroupsPrints env print texts os 0 texts.backend
  | unknown {s} (hh : ¬ Mentions os (str% "help")) (h : said os (str% "help-module") = [s]) (h1 : s ≠ str% "gui") (h2 : s ≠ str% "backend") :
      GroupsPrints env print texts os 1 (str% "Unknown module '" ++ s ++ str% "' in the --help-module option\n")
  | threads {t n} (hh : ¬ Mentions os (str% "help")) (hm : ¬ Mentions os (str% "help-module")) (h : said os (str% "num-threads") = [t])
      (hn : env.lex 0 t = some n) : GroupsPrints env print texts os 0 (str% "The 'num-threads' options was set to " ++ print n ++ ['\n'])
  | nothing (hh : ¬ Mentions os (str% "help")) (hm : ¬ Mentions os (str% "help-module")) (h : ¬ Mentions os (str% "num-threads")) :
      GroupsPrints env print texts os 0 []

/-- The rules of example/real.cpp about which options go together. -/
inductive Rule
  | conflict (a b : Str)
  | needs (a b : Str)

def Rule.Broken (os : List Opt) : Rule → Prop
  | .conflict a b => Mentions os a ∧ Mentions os b
  | .needs a b => Mentions os a ∧ ¬ Mentions os b

def Rule.text : Rule → Str
  | .conflict a b => str% "Conflicting options '" ++ a ++ str% "' and '" ++ b ++ str% "'."
  | .needs a b => str% "Option '" ++ a ++ str% "' requires option '" ++ b ++ str% "'."

/-- in the order in which they are checked -/
def realRules : List Rule :=
  [.conflict (str% "output") (str% "two"), .conflict (str% "output") (str% "body"), .conflict (str% "output") (str% "mainpackage"),
   .conflict (str% "two") (str% "mainpackage"), .conflict (str% "body") (str% "mainpackage"), .conflict (str% "two") (str% "body"),
   .conflict (str% "libmakfile") (str% "mainpackage"), .needs (str% "depends") (str% "mainpackage"), .needs (str% "sources") (str% "mainpackage"),
   .needs (str% "root") (str% "mainpackage")]

/-- The first rule that is broken. -/
def FirstBroken (os : List Opt) (rules : List Rule) (r : Rule) : Prop :=
  ∃ before after, rules = before ++ r :: after ∧ (∀ x ∈ before, ¬ x.Broken os) ∧ r.Broken os

/-- example/real.cpp -/
inductive RealPrints (help : Str) (os : List Opt) : Programs.Ending → Prop
  | help (h : Mentions os (str% "help")) : RealPrints help os (.exits 0 (help ++ ['\n']))
  | broken {r} (hh : ¬ Mentions os (str% "help")) (h : FirstBroken os realRules r) : RealPrints help os (.complains r.text)
  | two (hh : ¬ Mentions os (str% "help")) (h : ∀ r ∈ realRules, ¬ r.Broken os) (ht : Mentions os (str% "two")) : RealPrints help os (.exits 0 (str% "two = 1\n"))
  | notTwo (hh : ¬ Mentions os (str% "help")) (h : ∀ r ∈ realRules, ¬ r.Broken os) (ht : ¬ Mentions os (str% "two")) :
      RealPrints help os (.exits 0 (str% "two = 0\n"))

end PO.Spec
