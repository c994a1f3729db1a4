import Verif.Model.Split
/-
The languages of `split_unix` and `split_winmain`, written down as grammars.
-/
namespace PO.Spec

/-! ### Unix -/

section
variable (sep quote esc : Str)

/-- What a piece of the line contributes. The first and the last argument say whether it begins and ends inside quotes. -/
inductive UnixPiece : Bool → Str → Str → Bool → Prop
  /-- an escaped `n` is a newline -/
  | newline {q} (e : Char) (he : e ∈ esc) : UnixPiece q [e, 'n'] ['\n'] q
  /-- any other special character is itself when escaped -/
  | escaped {q} (e c : Char) (he : e ∈ esc) (hc : c ∈ sep ∨ c ∈ quote ∨ c ∈ esc) (hn : c ≠ 'n') : UnixPiece q [e, c] [c] q
  /-- a quote, of whatever kind, begins or ends quoting -/
  | quote {q} (c : Char) (hc : c ∈ quote) (hs : c ∉ sep) (he : c ∉ esc) : UnixPiece q [c] [] (!q)
  /-- a separator inside quotes -/
  | inside (c : Char) (hs : c ∈ sep) (he : c ∉ esc) : UnixPiece true [c] [c] true
  /-- any other character -/
  | other {q} (c : Char) (hs : c ∉ sep) (hq : c ∉ quote) (he : c ∉ esc) : UnixPiece q [c] [c] q

/-- A row of pieces. -/
inductive UnixField : Bool → Str → Str → Bool → Prop
  | nil {q} : UnixField q [] [] q
  | cons {q q' q'' s t s' t'} (h : UnixPiece sep quote esc q s t q') (hs : UnixField q' s' t' q'') : UnixField q (s ++ s') (t ++ t') q''

/-- A line: fields, with a separator outside quotes between them. Quotes need not be closed at the end. -/
inductive UnixLine : Str → List Str → Prop
  | last {s t q} (h : UnixField sep quote esc false s t q) : UnixLine s [t]
  | field {s t c rest fs} (h : UnixField sep quote esc false s t false) (hs : c ∈ sep) (he : c ∉ esc) (hr : UnixLine rest fs) :
      UnixLine (s ++ c :: rest) (t :: fs)

/-- An escape character that escapes nothing: it stands at the end or before an ordinary character. -/
def BadEscape (s : Str) : Prop :=
  ∃ pre e rest, s = pre ++ e :: rest ∧ (∃ fs, UnixLine sep quote esc pre fs) ∧ e ∈ esc ∧
    ∀ c, rest.head? = some c → c ≠ 'n' ∧ c ∉ sep ∧ c ∉ quote ∧ c ∉ esc

end

/-! ### Windows -/

section
variable {α : Type} (bs qt : α) (blank : List α)

/-- What a piece of the line contributes, as with `UnixPiece`; `bs` is the backslash, `qt` the quote. -/
inductive WinPiece : Bool → List α → List α → Bool → Prop
  /-- a quote after an even number of backslashes begins or ends quoting; the backslashes are halved -/
  | quote {q} (n : Nat) : WinPiece q (List.replicate (2 * n) bs ++ [qt]) (List.replicate n bs) (!q)
  /-- a quote after an odd number of backslashes is a quote; the other backslashes are halved -/
  | literal {q} (n : Nat) : WinPiece q (List.replicate (2 * n + 1) bs ++ [qt]) (List.replicate n bs ++ [qt]) q
  /-- any other character, except white space outside quotes; the backslashes before it are themselves -/
  | other {q} (n : Nat) (c : α) (h1 : c ≠ qt) (h2 : c ≠ bs) (h : q = true ∨ c ∉ blank) :
      WinPiece q (List.replicate n bs ++ [c]) (List.replicate n bs ++ [c]) q

/-- A row of pieces, and backslashes at the end that are themselves. -/
inductive WinArg : Bool → List α → List α → Bool → Prop
  | nil {q} (n : Nat) : WinArg q (List.replicate n bs) (List.replicate n bs) q
  | cons {q q' q'' s t s' t'} (h : WinPiece bs qt blank q s t q') (hs : WinArg q' s' t' q'') : WinArg q (s ++ s') (t ++ t') q''

/-- A line: arguments with white space around them. An argument has at least one character in the line, though perhaps only
quotes. Quotes need not be closed at the end. -/
inductive WinReads : List α → List (List α) → Prop
  | nil : WinReads [] []
  | blank {c s args} (hc : c ∈ blank) (h : WinReads s args) : WinReads (c :: s) args
  | last {s t q} (h : WinArg bs qt blank false s t q) (hne : s ≠ []) : WinReads s [t]
  | arg {s t c rest args} (h : WinArg bs qt blank false s t false) (hne : s ≠ []) (hc : c ∈ blank)
      (hr : WinReads rest args) : WinReads (s ++ c :: rest) (t :: args)

end

/-- White space of the "C" locale. -/
def blanks : Str := [' ', '\t', '\n', '\x0b', '\x0c', '\r']

end PO.Spec
