import Verif.Model.Split
import Verif.Model.Value
/-
Splitting a wide command line string: src/split.cpp:55-60 and src/winmain.cpp:91-99.
-/
namespace PO

/-- `tokenizeFields` for `wchar_t`: the same template (src/split.cpp:18-39 and Boost.Tokenizer), where `n` and the newline are the
wide characters with these codes. -/
def wtokenizeFields (sep quote esc : WStr) : WStr → Bool → WStr → Except Fail (List WStr)
  | [], _, cur => .ok [cur]
  | c :: cs, inQuote, cur =>
    if esc.elem c then
      match cs with
      | [] => .error .escapedList
      | e :: cs' =>
        if e = 'n'.toNat then wtokenizeFields sep quote esc cs' inQuote (cur ++ ['\n'.toNat])
        else if quote.elem e || sep.elem e || esc.elem e then
          wtokenizeFields sep quote esc cs' inQuote (cur ++ [e])
        else .error .escapedList
    else if sep.elem c then
      if inQuote then wtokenizeFields sep quote esc cs inQuote (cur ++ [c])
      else
        match wtokenizeFields sep quote esc cs false [] with
        | .error f => .error f
        | .ok fs => .ok (cur :: fs)
    else if quote.elem c then wtokenizeFields sep quote esc cs (!inQuote) cur
    else wtokenizeFields sep quote esc cs inQuote (cur ++ [c])

/-- `split_unix` for wide strings (src/split.cpp:55-60); the defaults are those of parsers.hpp. -/
def wsplitUnix (s : WStr) (sep : WStr := [' ', '\t'].map Char.toNat) (quote : WStr := ['\'', '"'].map Char.toNat)
    (esc : WStr := ['\\'].map Char.toNat) : Except Fail (List WStr) :=
  match wtokenizeFields sep quote esc s false [] with
  | .error f => .error f
  | .ok fs => .ok (fs.filter (fun f => f ≠ []))

/-- `split_winmain` for wide strings (src/winmain.cpp:91-99): by way of the internal encoding. -/
def wsplitWinmain (env : Env) (input : WStr) : Except Fail (List WStr) :=
  match env.toUtf8 input with
  | none => .error .conversion
  | some s =>
    match (splitWinmain s).mapM env.fromUtf8 with
    | none => .error .conversion
    | some args => .ok args

end PO
