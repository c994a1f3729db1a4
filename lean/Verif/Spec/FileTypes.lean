import Verif.Model.FileTypes
import Verif.Spec.SharedFile
import Verif.Spec.Convert
/-
What example/config_file_types.cpp expects of its file.
-/
namespace PO.FileTypes
open Spec

inductive Kind
  | text
  | number (ty : Nat)
  | switch

/-- The options of the program. -/
def declared : List (Str × Kind) :=
  [(str% "global_string", .text), (str% "strings.word", .text), (str% "strings.phrase", .text), (str% "strings.quoted", .text),
   (str% "ints.positive", .number 0), (str% "ints.negative", .number 0), (str% "ints.hex", .number 0), (str% "ints.oct", .number 0),
   (str% "ints.bin", .number 0), (str% "floats.positive", .number 1), (str% "floats.negative", .number 1), (str% "floats.double", .number 2),
   (str% "floats.int", .number 1), (str% "floats.int_dot", .number 1), (str% "floats.dot", .number 1), (str% "floats.exp_lower", .number 1),
   (str% "floats.exp_upper", .number 1), (str% "floats.exp_decimal", .number 1), (str% "floats.exp_negative", .number 1),
   (str% "floats.exp_negative_val", .number 1), (str% "floats.exp_negative_negative_val", .number 1), (str% "booleans.number_true", .switch),
   (str% "booleans.number_false", .switch), (str% "booleans.yn_true", .switch), (str% "booleans.yn_false", .switch),
   (str% "booleans.tf_true", .switch), (str% "booleans.tf_false", .switch), (str% "booleans.onoff_true", .switch),
   (str% "booleans.onoff_false", .switch), (str% "booleans.present_equal_true", .switch), (str% "booleans.present_no_equal_true", .switch)]

/-- The values of a name in the file. -/
def given (es : List (Str × Str)) (name : Str) : List Str := (es.filter fun e => e.1 = name).map (·.2)

def Yes (t : Str) : Prop := t.map Char.toLower ∈ yesWords
def No (t : Str) : Prop := t.map Char.toLower ∈ noWords

def Legible (env : Env) : Kind → Str → Prop
  | .text, _ => True
  | .number ty, t => ∃ v, env.lex ty t = some v
  | .switch, t => Yes t ∨ No t

/-- No option twice, and every value can be read. -/
def AllLegible (env : Env) (es : List (Str × Str)) : Prop :=
  ∀ q ∈ declared, (given es q.1).length ≤ 1 ∧ ∀ t ∈ given es q.1, Legible env q.2 t

/-- Names and values of what is not declared. -/
def others (es : List (Str × Str)) : List Str := (es.filter fun e => e.1 ∉ declared.map (·.1)).flatMap fun e => [e.1, e.2]

def strings : List (Str × Str) :=
  [(str% "global_string", str% "global value"), (str% "strings.word", str% "word"), (str% "strings.phrase", str% "this is a phrase"),
   (str% "strings.quoted", str% "\"quotes are in result\"")]

/-- name, type, and the literal in the program -/
def numbers : List (Str × Nat × Str) :=
  [(str% "ints.positive", 0, str% "41"), (str% "ints.negative", 0, str% "-42"), (str% "floats.positive", 1, str% "51.1f"),
   (str% "floats.negative", 1, str% "-52.1f"), (str% "floats.double", 2, str% "53.1234567890"), (str% "floats.int", 1, str% "54.0f"),
   (str% "floats.int_dot", 1, str% "55.0f"), (str% "floats.dot", 1, str% ".56f"), (str% "floats.exp_lower", 1, str% "57.1e5f"),
   (str% "floats.exp_upper", 1, str% "58.1E5f"), (str% "floats.exp_decimal", 1, str% ".591e5f"), (str% "floats.exp_negative", 1, str% "60.1e-5f"),
   (str% "floats.exp_negative_val", 1, str% "-61.1e5f"), (str% "floats.exp_negative_negative_val", 1, str% "-62.1e-5f")]

def on : List Str := [str% "booleans.number_true", str% "booleans.yn_true", str% "booleans.tf_true", str% "booleans.onoff_true", str% "booleans.present_equal_true"]
def off : List Str := [str% "booleans.number_false", str% "booleans.yn_false", str% "booleans.tf_false", str% "booleans.onoff_false"]

/-- The file is as the program expects it. -/
structure Expected (env : Env) (agrees : Nat → Int → Str → Bool) (es : List (Str × Str)) : Prop where
  legible : AllLegible env es
  strings : ∀ q ∈ strings, given es q.1 = [q.2]
  numbers : ∀ q ∈ numbers, ∃ t v, given es q.1 = [t] ∧ env.lex q.2.1 t = some v ∧ agrees q.2.1 v q.2.2 = true
  on : ∀ n ∈ on, ∃ t, given es n = [t] ∧ Yes t
  /-- or not there at all -/
  off : ∀ n ∈ off, ∀ t ∈ given es n, No t
  others : [str% "unregistered_entry", str% "unregistered value"] <+: others es

/-- The numbers in the program's own file: type, text, and the literal in the program. -/
def ownNumbers : List (Nat × Str × Str) :=
  [(0, str% "41", str% "41"), (0, str% "-42", str% "-42"), (1, str% "51.1", str% "51.1f"), (1, str% "-52.1", str% "-52.1f"),
   (2, str% "53.1234567890", str% "53.1234567890"), (1, str% "54", str% "54.0f"), (1, str% "55.", str% "55.0f"), (1, str% ".56", str% ".56f"),
   (1, str% "57.1e5", str% "57.1e5f"), (1, str% "58.1E5", str% "58.1E5f"), (1, str% ".591e5", str% ".591e5f"), (1, str% "60.1e-5", str% "60.1e-5f"),
   (1, str% "-61.1e5", str% "-61.1e5f"), (1, str% "-62.1e-5", str% "-62.1e-5f")]

end PO.FileTypes
