import Verif.Model.Format
/-
Printing the help to a `std::ostream` that has a field width, a fill character, an adjustment, and a buffer that may run out of room. `operator<<` for strings
and characters pads to the field width, and sets it to 0; `put` does not. Both do nothing if the stream is not good. The
functions of Model/Format.lean, statement by statement (src/options_description.cpp:418-698).
-/
namespace PO.HelpStream

/-- `os.put(c)`, or `os << s` with a string or character. -/
inductive Op
  | put (c : Char)
  | ins (s : Str)
  deriving DecidableEq, Repr

/-- What is done to the stream, and the exception (or what is undefined) at the end of it. -/
abbrev Out := List Op × Option Fail

def andThen (a b : Out) : Out :=
  match a with
  | (x, some f) => (x, some f)
  | (x, none) => (x ++ b.1, b.2)

/-- `copy(begin, end, ostream_iterator<char>(os))`: `os << c` for each character. -/
def chars (s : Str) : List Op := s.map fun c => .ins [c]

/-- `for (pad = n; pad > 0; --pad) os.put(' ')` -/
def puts (n : Nat) : List Op := List.replicate n (.put ' ')

/-- `os << '\n'` and blanks (src/options_description.cpp:549-554, 600-606). -/
def newLine (n : Nat) : List Op := .ins ['\n'] :: puts n

/-- The loop of `format_paragraph` (src/options_description.cpp:489-559) after the first line. -/
def restOps (pad : Nat) : Nat → Str → Nat → Out
  | _, [], _ => ([], none)
  | 0, _ :: _, _ => ([], some .fuel)
  | fuel + 1, s, len =>
    if len = 0 then ([], some (.ub .formatRange))
    else
      let s' := dropLead s
      let rest := s'.drop (lineEnd s' len)
      andThen (chars (s'.take (lineEnd s' len)) ++ (if rest = [] then [] else newLine pad), none) (restOps pad fuel rest len)

/-- `format_paragraph` (src/options_description.cpp:435-561). -/
def paragraphOps (par : Str) (indent lineLength : Nat) : Out :=
  if indent < lineLength then
    let len := lineLength - indent
    match parIndent par len with
    | .error f => ([], some f)
    | .ok (pi, p) =>
      if p.length < len then ([.ins p], none)
      else
        let rest := p.drop (lineEnd p len)
        andThen (chars (p.take (lineEnd p len)) ++ (if rest = [] then [] else newLine (indent + pi)), none)
          (restOps (indent + pi) p.length rest (len - pi))
  else ([], some (.ub .formatAssert))

/-- The loop of `format_description` (src/options_description.cpp:592-609). -/
def parsOps (indent lineLength : Nat) : List Str → Out
  | [] => ([], none)
  | [p] => paragraphOps p indent lineLength
  | p :: q :: ps => andThen (paragraphOps p indent lineLength) (andThen (newLine indent, none) (parsOps indent lineLength (q :: ps)))

/-- `format_description` (src/options_description.cpp:563-610). -/
def descriptionOps (desc : Str) (firstCol lineLength : Nat) : Out :=
  if lineLength > 1 then
    if lineLength - 1 > firstCol then parsOps firstCol (lineLength - 1) (splitNl desc)
    else ([], some (.ub .formatAssert))
  else ([], some (.ub .formatAssert))

/-- `format_one` (src/options_description.cpp:612-640). -/
def oneOps (d : OptionDesc) (firstCol lineLength : Nat) : Out :=
  match d.leftColumn with
  | .error f => ([], some f)
  | .ok ss =>
    if d.description = [] then ([.ins ss], none)
    else
      andThen (.ins ss :: (if ss.length ≥ firstCol then .put '\n' :: puts firstCol else puts (firstCol - ss.length)), none)
        (descriptionOps d.description firstCol lineLength)

/-- The first loop of `print` (src/options_description.cpp:681-692). -/
def optionsOps (width lineLength : Nat) : List OptionDesc → Out
  | [] => ([], none)
  | d :: ds => andThen (oneOps d width lineLength) (andThen ([.ins ['\n']], none) (optionsOps width lineLength ds))

/-- The caption (src/options_description.cpp:675-676). -/
def captionOps (caption : Str) : List Op := if caption = [] then [] else [.ins caption, .ins (str% ":\n")]

mutual
/-- `print` once the width is known (src/options_description.cpp:672-698). -/
def printOps (width : Nat) : OptionsDesc → Out
  | ⟨caption, lineLength, _, options, belong, groups⟩ =>
    andThen (captionOps caption, none) (andThen (optionsOps width lineLength (ownOptions options belong)) (groupsOps width groups))

def groupsOps (width : Nat) : List OptionsDesc → Out
  | [] => ([], none)
  | g :: gs => andThen ([.ins ['\n']], none) (andThen (printOps width g) (groupsOps width gs))
end

/-- `print(os, width)` (src/options_description.cpp:672-698): the caption is written before the width is computed. -/
def helpOps (o : OptionsDesc) (width : Nat := 0) : Out :=
  if width = 0 then
    match columnWidth o with
    | .error f => (captionOps o.caption, some f)
    | .ok w => printOps w o
  else printOps width o

/-- A `std::ostream`, with what was written to it. `room`: how many more characters its buffer takes (`none`: any number). `good` is false after
a write that failed; `exceptions()` is as at the beginning, so nothing is thrown. -/
structure Ostream where
  width : Nat := 0
  fill : Char := ' '
  left : Bool := false
  room : Option Nat := none
  good : Bool := true
  text : Str := []
  deriving DecidableEq, Repr

/-- Characters go to the buffer while there is room. -/
def write (o : Ostream) (s : Str) : Ostream :=
  match o.room with
  | none => { o with text := o.text ++ s }
  | some k => { o with text := o.text ++ s.take k, room := some (k - s.length), good := decide (s.length ≤ k) }

/-- A string in the field of the stream. -/
def padded (o : Ostream) (s : Str) : Str :=
  let pad := List.replicate (o.width - s.length) o.fill
  if o.left then s ++ pad else pad ++ s

def perform (o : Ostream) : Op → Ostream
  | .put c => if o.good then write o [c] else o
  | .ins s => if o.good then { write o (padded o s) with width := 0 } else o

/-- `desc.print(os, width)`, and `os << desc` if the width is 0 (src/options_description.cpp:418-423). -/
def print (os : Ostream) (o : OptionsDesc) (width : Nat := 0) : Ostream × Option Fail :=
  let out := helpOps o width
  (out.1.foldl perform os, out.2)

end PO.HelpStream
