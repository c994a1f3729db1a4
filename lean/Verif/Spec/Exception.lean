import Verif.Model.Exception
import Verif.Spec.Order
/-
What an exception has been told last, by the calls of its member functions in order.
-/
namespace PO.Spec
open Exception (Call)

/-- What `what()` says: it returns this text. -/
def WhatSays (o : Exception.Obj) (m : Str) : Prop := ∃ fuel o', Exception.what fuel o = some o' ∧ o'.message = m

/-- The text a call gives for a parameter; the classes without option name ignore theirs. -/
def tellsText (named : Bool) (k : Str) : Call → Option Str
  | .setSubstitute k' v => if k' = k then some v else none
  | .setOptionName n => if named ∧ k = str% "option" then some n else none
  | .setOriginalToken t => if k = str% "original_token" then some t else none
  | .addContext n t _ => if k = str% "original_token" then some t else if named ∧ k = str% "option" then some n else none
  | _ => none

/-- The default a call gives for a parameter. -/
def tellsDefault (k : Str) : Call → Option (Str × Str)
  | .setDefault k' src dst => if k' = k then some (src, dst) else none
  | _ => none

def tellsStyle : Call → Option Nat
  | .setPrefix s => some s
  | .addContext _ _ s => some s
  | _ => none

def tellsTemplate : Call → Option Str
  | .setTemplate t => some t
  | _ => none

/-- What was told last. -/
def toldLast {α : Type} (tells : Call → Option α) (cs : List Call) : Option α := (cs.filterMap tells).getLast?

/-- The same was told last about everything. -/
structure ToldAlike (named : Bool) (cs cs' : List Call) : Prop where
  text : ∀ k, toldLast (tellsText named k) cs = toldLast (tellsText named k) cs'
  default : ∀ k, toldLast (tellsDefault k) cs = toldLast (tellsDefault k) cs'
  style : toldLast tellsStyle cs = toldLast tellsStyle cs'
  template : toldLast tellsTemplate cs = toldLast tellsTemplate cs'

end PO.Spec

namespace PO.Spec

/-- A piece of a template: text, or text around one placeholder. -/
inductive Slot
  | text (s : Str)
  | hole (before key behind : Str)
  deriving DecidableEq, Repr

def Slot.written : Slot → Str
  | .text s => s
  | .hole before key behind => before ++ ('%' :: key ++ ['%']) ++ behind

/-- No per cent signs but those around the placeholders. -/
def Slot.Proper : Slot → Prop
  | .text s => '%' ∉ s
  | .hole before key behind => '%' ∉ before ∧ '%' ∉ key ∧ '%' ∉ behind

/-- The placeholder replaced by the text for it; left in place if there is none. -/
def Slot.filled (text : Str → Option Str) : Slot → Str
  | .text s => s
  | .hole before key behind => before ++ (text key).getD ('%' :: key ++ ['%']) ++ behind

def Slot.key? : Slot → Option Str
  | .text _ => none
  | .hole _ key _ => some key

/-- Words with the characters between them, and the last word. -/
structure Sentence where
  words : List (Slot × Char)
  last : Slot

def Sentence.map (f : Slot → Str) (s : Sentence) : Str := s.words.flatMap (fun p => f p.1 ++ [p.2]) ++ f s.last

def Sentence.written (s : Sentence) : Str := s.map Slot.written

def Sentence.filled (text : Str → Option Str) (s : Sentence) : Str := s.map (Slot.filled text)

def Sentence.keys (s : Sentence) : List Str := (s.words.map (·.1) ++ [s.last]).filterMap Slot.key?

structure Sentence.Proper (s : Sentence) : Prop where
  words : ∀ p ∈ s.words, p.1.Proper ∧ p.2 ≠ '%'
  last : s.last.Proper

/-- A parameter name that cannot be read across two words. -/
structure Sentence.Safe (s : Sentence) (key : Str) : Prop where
  percent : '%' ∉ key
  between : ∀ p ∈ s.words, p.2 ∉ key

/-- The parameters an exception knows without being told. -/
def ownParameters : List Str := [str% "canonical_option", str% "option", str% "original_token", str% "prefix"]

/-- The text an exception has for a parameter: what it was told last; its constructor told it the option and the token. `name` and `pre` are the
option's name and the prefix as they are to be shown. -/
def textFor (named : Bool) (option token : Str) (cs : List Exception.Call) (name pre k : Str) : Option Str :=
  if k = str% "prefix" then some pre
  else if k = str% "canonical_option" then some name
  else (toldLast (tellsText named k) cs).or
    (if k = str% "original_token" then some token else if k = str% "option" then some option else none)

/-- The default an exception has for a parameter: what it was told last, or one of the three of its constructor (src/value_semantic.cpp:255-257). -/
def defaultFor (cs : List Exception.Call) (k : Str) : Option (Str × Str) :=
  (toldLast (tellsDefault k) cs).or
    (if k = str% "canonical_option" then some (str% "option '%canonical_option%'", str% "option")
     else if k = str% "value" then some (str% "argument ('%value%')", str% "argument")
     else if k = str% "prefix" then some (str% "%prefix%", [])
     else none)

/-- As long as there is `src` in the text, its first occurrence is replaced by `dst`. -/
inductive Reworded (src dst : Str) : Str → Str → Prop
  | done {t} (h : ¬ src <:+: t) : Reworded src dst t t
  | first {r} (a b : Str) (h : ∀ a', a' ++ src <+: a ++ src ++ b → a.length ≤ a'.length) (t : Reworded src dst (a ++ dst ++ b) r) :
      Reworded src dst (a ++ src ++ b) r

/-- One after the other. -/
inductive RewordedAll : List (Str × Str × Str) → Str → Str → Prop
  | nil (t) : RewordedAll [] t t
  | cons {k src dst ds t t1 r} (h : Reworded src dst t t1) (hs : RewordedAll ds t1 r) : RewordedAll ((k, src, dst) :: ds) t r

/-- The defaults that apply, by the names of their parameters: those of the parameters without a text. -/
structure Applying (named : Bool) (option token : Str) (cs : List Exception.Call) (name pre : Str) (ds : List (Str × Str × Str)) : Prop where
  order : ds.Pairwise fun a b => Earlier a.1 b.1
  mem : ∀ k src dst, (k, src, dst) ∈ ds ↔ defaultFor cs k = some (src, dst) ∧ (textFor named option token cs name pre k).getD [] = []

end PO.Spec
