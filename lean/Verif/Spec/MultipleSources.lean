import Verif.Model.MultipleSources
import Verif.Spec.Several
/-
What example/multiple_sources.cpp prints.
-/
namespace PO.Spec
open MultipleSources

/-- The values a source has for a name. -/
def said (os : List Opt) (name : Str) : List Str := (occurrences os name).flatMap (·.value)

/-- The source has the option at most once. -/
def AtMostOnce (os : List Opt) (name : Str) : Prop := (occurrences os name).length ≤ 1

/-- What the source says about the optimization level is a number. -/
def LevelReads (env : Env) (os : List Opt) : Prop := ∀ o ∈ occurrences os (str% "optimization"), ∃ t n, o.value = [t] ∧ env.lex 0 t = some n

/-- The file to be read: the one named on the command line, or the default. -/
def FileNamed (pc : List Opt) (n : Str) : Prop := said pc (str% "config") = [n] ∨ ¬ Mentions pc (str% "config") ∧ n = str% "multiple_sources.cfg"

/-- The optimization level: the one of the command line, or else of the file, or else 10. -/
inductive Level (env : Env) (pc pf : List Opt) : Int → Prop
  | commandLine {t n} (h : said pc (str% "optimization") = [t]) (hn : env.lex 0 t = some n) : Level env pc pf n
  | file {t n} (h : ¬ Mentions pc (str% "optimization")) (h' : said pf (str% "optimization") = [t]) (hn : env.lex 0 t = some n) : Level env pc pf n
  | default (h : ¬ Mentions pc (str% "optimization")) (h' : ¬ Mentions pf (str% "optimization")) : Level env pc pf 10

/-- The line for an option with a list of values, if the option is there. -/
inductive ListLine (title : Str) (given : Prop) (values : List Str) : Str → Prop
  | none (h : ¬ given) : ListLine title given values []
  | some (h : given) : ListLine title given values (title ++ values.flatMap (· ++ [' ']) ++ ['\n'])

/-- What is printed if neither help nor version are asked for. -/
def Reports (env : Env) (print : Int → Str) (pc pf : List Opt) (out : Str) : Prop :=
  ∃ inc inp n,
    ListLine (str% "Include paths are: ") (Mentions pc (str% "include-path") ∨ Mentions pf (str% "include-path"))
      (said pc (str% "include-path") ++ said pf (str% "include-path")) inc ∧
    (Mentions pc (str% "input-file") ∧ ListLine (str% "Input files are: ") True (said pc (str% "input-file")) inp ∨
      ¬ Mentions pc (str% "input-file") ∧ ListLine (str% "Input files are: ") (Mentions pf (str% "input-file")) (said pf (str% "input-file")) inp) ∧
    Level env pc pf n ∧ out = inc ++ inp ++ str% "Optimization level is " ++ print n ++ ['\n']

/-- What the program prints, if it returns 0. -/
inductive Prints (env : Env) (print : Int → Str) (help : Str) (files : Str → Option Str) (pc : List Opt) : Str → Prop
  | noFile (n : Str) (hn : FileNamed pc n) (hf : files n = none) : Prints env print help files pc (str% "can not open config file: " ++ n ++ ['\n'])
  | help {n text pf} (hn : FileNamed pc n) (hf : files n = some text) (hp : configFile env text = .ok pf)
      (hl : ¬ Mentions pc (str% "optimization") → AtMostOnce pf.options (str% "optimization") ∧ LevelReads env pf.options)
      (hh : Mentions pc (str% "help")) : Prints env print help files pc (help ++ ['\n'])
  | version {n text pf} (hn : FileNamed pc n) (hf : files n = some text) (hp : configFile env text = .ok pf)
      (hl : ¬ Mentions pc (str% "optimization") → AtMostOnce pf.options (str% "optimization") ∧ LevelReads env pf.options)
      (hh : ¬ Mentions pc (str% "help")) (hv : Mentions pc (str% "version")) :
      Prints env print help files pc (str% "Multiple sources example, version 1.0\n")
  | report {n text pf out} (hn : FileNamed pc n) (hf : files n = some text) (hp : configFile env text = .ok pf)
      (hl : ¬ Mentions pc (str% "optimization") → AtMostOnce pf.options (str% "optimization") ∧ LevelReads env pf.options)
      (hh : ¬ Mentions pc (str% "help")) (hv : ¬ Mentions pc (str% "version")) (hr : Reports env print pc pf.options out) :
      Prints env print help files pc out

end PO.Spec
