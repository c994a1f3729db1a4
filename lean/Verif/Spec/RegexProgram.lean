import Verif.Model.RegexProgram
import Verif.Spec.Programs
import Verif.Spec.Custom
/-
What example/regex.cpp prints.
-/
namespace PO.Spec

/-- Decimal digits. -/
inductive Digit : Char → Nat → Prop
  | zero : Digit '0' 0 | one : Digit '1' 1 | two : Digit '2' 2 | three : Digit '3' 3 | four : Digit '4' 4
  | five : Digit '5' 5 | six : Digit '6' 6 | seven : Digit '7' 7 | eight : Digit '8' 8 | nine : Digit '9' 9

/-- Three digits, a dash, and the three digits of a number. -/
inductive Magic : Str → Int → Prop
  | mk {a b c d e f : Char} {i j k x y z : Nat} (ha : Digit a i) (hb : Digit b j) (hc : Digit c k) (hd : Digit d x) (he : Digit e y) (hf : Digit f z) :
      Magic [a, b, c, '-', d, e, f] (100 * x + 10 * y + z)

/-- example/regex.cpp -/
inductive RegexPrints (print : Int → Str) (help : Str) (os : List Opt) : Str → Prop
  | help (h : Mentions os (str% "help")) : RegexPrints print help os (str% "Usage: regex [options]\n" ++ help)
  | version (hh : ¬ Mentions os (str% "help")) (h : Mentions os (str% "version")) : RegexPrints print help os (str% "Version 1.\n")
  | magic {t n} (hh : ¬ Mentions os (str% "help")) (hv : ¬ Mentions os (str% "version")) (h : tokensOf os (str% "magic") = [[t]]) (hn : Magic t n) :
      RegexPrints print help os (str% "The magic is \"" ++ print n ++ str% "\"\n")
  | nothing (hh : ¬ Mentions os (str% "help")) (hv : ¬ Mentions os (str% "version")) (h : ¬ Mentions os (str% "magic")) : RegexPrints print help os []

end PO.Spec
