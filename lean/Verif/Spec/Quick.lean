import Verif.Model.Quick
import Verif.Spec.Programs
import Verif.Spec.GrammarAll
/-
The command lines of a program with one option `--path`, `-p`, for a text.
-/
namespace PO.Quick

/-- What may be written for the name after two dashes. -/
def Name (n : Str) : Prop := n ≠ [] ∧ n <+: str% "path" ∨ n = str% "-p"

/-- What is taken as the value if it is the next argument: neither `-p` nor `--name=`. -/
def Value (v : Str) : Prop := v ≠ str% "-p" ∧ ∀ n, '=' ∉ n → v ≠ str% "--" ++ n ++ str% "="

/-- The command line `args` gives the option these values. -/
inductive Line : List Str → List Str → Prop
  | nil : Line [] []
  | stop (args : List Str) : Line (str% "--" :: args) []
  | word {args vs} (w : Str) (h : w.head? ≠ some '-' ∨ w = str% "-") (t : Line args vs) : Line (w :: args) vs
  /-- no name: a positional argument -/
  | nameless {args vs} (v : Str) (h : v ≠ []) (t : Line args vs) : Line ((str% "--=" ++ v) :: args) vs
  | equals {args vs} (n v : Str) (hn : Name n) (h : v ≠ []) (t : Line args vs) : Line ((str% "--" ++ n ++ str% "=" ++ v) :: args) (v :: vs)
  | next {args vs} (n v : Str) (hn : Name n) (h : Value v) (t : Line args vs) : Line ((str% "--" ++ n) :: v :: args) (v :: vs)
  | short {args vs} (v : Str) (h : v ≠ []) (t : Line args vs) : Line ((str% "-p" ++ v) :: args) (v :: vs)
  | shortNext {args vs} (v : Str) (h : Value v) (t : Line args vs) : Line (str% "-p" :: v :: args) (v :: vs)

end PO.Quick
