import Verif.Model.ExtraPrograms
import Verif.Spec.Programs
import Verif.Spec.Joined
/-
What example/custom_syntax.cpp and example/response_file.cpp print.
-/
namespace PO.Spec

/-- A text that is printed on a condition. -/
inductive Perhaps (g : Prop) (text : Str) : Str → Prop
  | yes (h : g) : Perhaps g text text
  | no (h : ¬ g) : Perhaps g text []

/-- A line about the value of `name`, if there is one. -/
inductive ValueLine (title : Str) (os : List Opt) (name : Str) : Str → Prop
  | some {t} (h : said os name = [t]) : ValueLine title os name (title ++ t ++ ['\n'])
  | none (h : ¬ Mentions os name) : ValueLine title os name []

/-- example/custom_syntax.cpp -/
inductive CustomPrints (help : Str) (os : List Opt) : Str → Prop
  | mk {a b} (ha : Perhaps (Mentions os (str% "help")) (help ++ str% "\nIn addition -ffoo and -fno-foo syntax are recognized.\n") a)
      (hb : ValueLine (str% "foo value with the value of ") os (str% "foo") b) : CustomPrints help os (a ++ b)

/-- The line about the magic value: of the first source that has one. -/
inductive MagicLine (env : Env) (print : Int → Str) (p q : List Opt) : Str → Prop
  | first {t n} (h : said p (str% "magic") = [t]) (hn : env.lex 0 t = some n) : MagicLine env print p q (str% "Magic value: " ++ print n ++ ['\n'])
  | second {t n} (h0 : ¬ Mentions p (str% "magic")) (h : said q (str% "magic") = [t]) (hn : env.lex 0 t = some n) :
      MagicLine env print p q (str% "Magic value: " ++ print n ++ ['\n'])
  | none (h0 : ¬ Mentions p (str% "magic")) (h : ¬ Mentions q (str% "magic")) : MagicLine env print p q []

/-- example/response_file.cpp, with the options of the command line and those of the response file (none if there is none). -/
inductive ResponsePrints (env : Env) (print : Int → Str) (help : Str) (p q : List Opt) : Str → Prop
  | mk {a b c} (ha : Perhaps (Mentions p (str% "help")) help a)
      (hb : ListLine (str% "Include paths: ") (Mentions p (str% "include-path") ∨ Mentions q (str% "include-path"))
        (said p (str% "include-path") ++ said q (str% "include-path")) b)
      (hc : MagicLine env print p q c) : ResponsePrints env print help p q (a ++ b ++ c)

/-- The command line can be stored. -/
def ResponseFine (env : Env) (p : List Opt) : Prop :=
  AtMostOnce p (str% "help") ∧ AtMostOnce p (str% "magic") ∧ IsNumber env 0 p (str% "magic") ∧ AtMostOnce p (str% "response-file")

/-- The response file can be stored after the command line: options other than `--include-path` that the command line has are not looked at. -/
def ResponseFineAfter (env : Env) (p q : List Opt) : Prop :=
  (¬ Mentions p (str% "help") → AtMostOnce q (str% "help")) ∧
  (¬ Mentions p (str% "magic") → AtMostOnce q (str% "magic") ∧ IsNumber env 0 q (str% "magic")) ∧
  (¬ Mentions p (str% "response-file") → AtMostOnce q (str% "response-file"))

end PO.Spec
