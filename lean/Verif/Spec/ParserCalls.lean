import Verif.Model.ParserCalls
import Verif.Props.Style
/-
What a program has told a command line parser.
-/
namespace PO.Spec
open PO.ParserCalls

def asksDesc : Happening → Option Nat
  | .did (.options i) _ => some i
  | _ => none

def asksPositional : Happening → Option Nat
  | .did (.positional i) _ => some i
  | _ => none

/-- Only a style that was accepted counts; 0 stands for the default style. -/
def asksStyle : Happening → Option Nat
  | .did (.style n) none => some (if n = 0 then Style.defaultStyle else n)
  | _ => none

def asksExtra : Happening → Option (Option (Str → Str × Str))
  | .did (.extraParser f) _ => some f
  | _ => none

def asksStyleParser : Happening → Option (Option StyleParser)
  | .did (.extraStyleParser p) _ => some p
  | _ => none

def rewrites (i : Nat) : Happening → Option (List OptionDesc)
  | .did (.changeDesc j ds) _ => if i = j then some ds else none
  | _ => none

def rewritesPositional (i : Nat) : Happening → Option Positional
  | .did (.changePositional j p) _ => if i = j then some p else none
  | _ => none

/-- The last of what was asked for. -/
def lastAsked {α : Type} (f : Happening → Option α) (es : List Happening) : Option α := (es.filterMap f).getLast?

/-- The parser that a program has asked for, having named description `i` last: of each kind of call the last counts, unregistered options are
allowed if that was ever said, and the descriptions count as they are now. -/
structure AskedFor (mem : Memory) (es : List Happening) (i : Nat) (c : Cmdline) : Prop where
  style : c.style = (lastAsked asksStyle es).getD Style.defaultStyle
  allowUnregistered : c.allowUnregistered = true ↔ ∃ r, Happening.did .allowUnregistered r ∈ es
  desc : c.desc = (lastAsked (rewrites i) es).getD (mem.desc i)
  positional : c.positional = (lastAsked asksPositional es).map fun j => (lastAsked (rewritesPositional j) es).getD (mem.positional j)
  additional : c.additional = (lastAsked asksExtra es).getD none
  styleParser : c.styleParser = (lastAsked asksStyleParser es).getD none

/-- What `run` does if the function of Model/Cmdline does `r` and description `i` was named last. -/
def answerOf (c : Cmdline) (i : Nat) : Except Fail (List Opt) → Answer
  | .error f => .outcome (.error f)
  | .ok os => .outcome (.ok { description := .to i, options := os, pre := c.canonicalPrefix })

/-- What `run` does if no description was ever named. -/
def answerWithout : Constructor → Answer
  | .vector _ => .indeterminate
  | .argv _ => .assertion

/-- The kind of a call; changes of different descriptions are of different kinds. -/
def askKind : Call → Nat × Nat
  | .options _ => (0, 0)
  | .positional _ => (1, 0)
  | .style _ => (2, 0)
  | .extraParser _ => (3, 0)
  | .allowUnregistered => (4, 0)
  | .extraStyleParser _ => (5, 0)
  | .changeDesc i _ => (6, i)
  | .changePositional i _ => (7, i)

/-- The tokens that a constructor takes. -/
def tokensGiven : Constructor → List Str
  | .vector args => args
  | .argv argv => argv.drop 1

end PO.Spec
