import Verif.Model.Err
/-
Splitting a command line string: src/split.cpp and src/winmain.cpp.
-/
namespace PO

/-- `boost::escaped_list_separator<char>(escape, separator, quote)` driven by `boost::tokenizer`
over the whole input. Boost.Tokenizer is not part of /repo; this transcribes its documented
behaviour: an unquoted separator ends a field (also the last one, so a blank field follows it), a
quote toggles quoting, an escape must be followed by `n`, a quote, a separator or an escape.
`cur` is the field being collected. -/
def tokenizeFields (sep quote esc : Str) : Str → Bool → Str → Except Fail (List Str)
  | [], _, cur => .ok [cur]
  | c :: cs, inQuote, cur =>
    if esc.elem c then
      match cs with
      | [] => .error .escapedList
      | e :: cs' =>
        if e = 'n' then tokenizeFields sep quote esc cs' inQuote (cur ++ ['\n'])
        else if quote.elem e || sep.elem e || esc.elem e then
          tokenizeFields sep quote esc cs' inQuote (cur ++ [e])
        else .error .escapedList
    else if sep.elem c then
      if inQuote then tokenizeFields sep quote esc cs inQuote (cur ++ [c])
      else
        match tokenizeFields sep quote esc cs false [] with
        | .error f => .error f
        | .ok fs => .ok (cur :: fs)
    else if quote.elem c then tokenizeFields sep quote esc cs (!inQuote) cur
    else tokenizeFields sep quote esc cs inQuote (cur ++ [c])

/-- `split_unix` (src/split.cpp:18-39): empty fields are dropped. Defaults from parsers.hpp:
separators `" \t"`, quotes `'"`, escape `\`. -/
def splitUnix (s : Str) (sep : Str := [' ', '\t']) (quote : Str := ['\'', '"'])
    (esc : Str := ['\\']) : Except Fail (List Str) :=
  match tokenizeFields sep quote esc s false [] with
  | .error f => .error f
  | .ok fs => .ok (fs.filter (fun f => f ≠ []))

/-- `isspace` in the "C" locale. -/
def isSpace (c : Char) : Bool :=
  c == ' ' || c == '\t' || c == '\n' || c == '\x0b' || c == '\x0c' || c == '\r'

/-- State of the main loop of `split_winmain`. -/
structure WinState where
  current : Str := []
  insideQuoted : Bool := false
  emptyQuote : Bool := false
  backslashes : Nat := 0
  deriving DecidableEq, Repr

/-- The main loop of `split_winmain` and its epilogue (src/winmain.cpp:40-87). The inner loop
skipping the remaining spaces after a terminating space is `dropWhile isSpace`: `skipping` is true
while it runs. -/
def winLoop : Str → Bool → WinState → List Str
  | [], _, st =>
    let current := if st.backslashes ≠ 0 then st.current ++ List.replicate st.backslashes '\\' else st.current
    if current ≠ [] ∨ st.insideQuoted ∨ st.emptyQuote then [current] else []
  | c :: cs, skipping, st =>
    if skipping && isSpace c then winLoop cs true st
    else if c = '"' then
      let current := st.current ++ List.replicate (st.backslashes / 2) '\\'
      if st.backslashes % 2 = 0 then
        winLoop cs false { current, emptyQuote := st.insideQuoted && current.isEmpty
                           insideQuoted := !st.insideQuoted, backslashes := 0 }
      else winLoop cs false { st with current := current ++ ['"'], backslashes := 0 }
    else if c = '\\' then winLoop cs false { st with backslashes := st.backslashes + 1 }
    else
      let current := if st.backslashes ≠ 0 then st.current ++ List.replicate st.backslashes '\\' else st.current
      if isSpace c && !st.insideQuoted then
        current :: winLoop cs true { current := [], insideQuoted := st.insideQuoted, emptyQuote := false, backslashes := 0 }
      else winLoop cs false { st with current := current ++ [c], backslashes := 0 }

/-- `split_winmain` (src/winmain.cpp:23-88). -/
def splitWinmain (input : Str) : List Str :=
  match input.dropWhile isSpace with
  | [] => []
  | s => winLoop s false {}

end PO
