import Verif.Model.Parsers
import Verif.Model.Split
/-
The calls of `tolower` and `isspace`, with the domain of these functions taken into account: the C standard leaves them
undefined unless the argument is `EOF` (here -1) or the value of an `unsigned char`. `none` is undefined behaviour.
-/
namespace PO
namespace Ctype

/-- The `int` a plain `char` is converted to when it is passed to `tolower`; `signed`: is `char` a signed type? -/
def charArg (signed : Bool) (c : Char) : Int :=
  if signed && decide (128 ≤ c.toNat) then (c.toNat : Int) - 256 else c.toNat

/-- The arguments `<cctype>` functions are defined for. -/
def domain (n : Int) : Bool := decide (n = -1 ∨ 0 ≤ n ∧ n ≤ 255)

/-- `char(tolower(c))` for a `char c`, "C" locale (src/options_description.cpp:40, src/value_semantic.cpp:155,
src/parsers.cpp:235). -/
def tolower (signed : Bool) (c : Char) : Option Char :=
  if domain (charArg signed c) then some c.toLower else none

/-- `tolower_` (src/options_description.cpp:34-43) and the loops at src/value_semantic.cpp:154-155 and
src/parsers.cpp:231-236. -/
def lower (signed : Bool) : Str → Option Str
  | [] => some []
  | c :: cs => do
    let l ← tolower signed c
    let ls ← lower signed cs
    some (l :: ls)

/-- `long_ignore_case ? tolower_(s) : s` (src/options_description.cpp:81, 85, 117). -/
def lowerIf (signed icase : Bool) (s : Str) : Option Str := if icase then lower signed s else some s

/-- The loop over the long names in `option_description::match` (src/options_description.cpp:83-113). -/
def matchLongs (signed : Bool) (option : Str) (approx longIcase : Bool) :
    List Str → MatchResult → Option MatchResult
  | [], r => some r
  | n :: ns, r => do
    let name ← lowerIf signed longIcase n
    if name = [] then matchLongs signed option approx longIcase ns r
    else
      let r1 :=
        if r = .noMatch ∧ name.getLast? = some '*' then
          if findSub option (substr name 0 (name.length - 1)) = some 0 then .approximateMatch else r
        else r
      if name = option then some .fullMatch
      else if approx then
        if findSub name option = some 0 then matchLongs signed option approx longIcase ns .approximateMatch
        else matchLongs signed option approx longIcase ns r1
      else matchLongs signed option approx longIcase ns r1

/-- `option_description::match` (src/options_description.cpp:74-126). -/
def «match» (signed : Bool) (d : OptionDesc) (option : Str) (approx longIcase shortIcase : Bool) :
    Option MatchResult := do
  let localOption ← lowerIf signed longIcase option
  let r ← matchLongs signed localOption approx longIcase d.longNames .noMatch
  if r = .fullMatch then some r
  else
    let localShort ← lowerIf signed shortIcase d.shortName
    some (if localShort = localOption then .fullMatch else r)

/-- The loop of `find_nothrow` (src/options_description.cpp:380-402). -/
def findLoop (signed : Bool) (name : Str) (approx longIcase shortIcase : Bool) :
    List OptionDesc → Option OptionDesc → List Str → List Str →
    Option (Option OptionDesc × List Str × List Str)
  | [], found, full, apx => some (found, full, apx)
  | d :: ds, found, full, apx => do
    let r ← «match» signed d name approx longIcase shortIcase
    match r with
    | .noMatch => findLoop signed name approx longIcase shortIcase ds found full apx
    | .fullMatch =>
      findLoop signed name approx longIcase shortIcase ds (some d) (full ++ [d.key name]) apx
    | .approximateMatch =>
      findLoop signed name approx longIcase shortIcase ds (if full = [] then some d else found) full
        (apx ++ [d.key name])

/-- `options_description::find_nothrow` (src/options_description.cpp:366-415). -/
def findNothrow (signed : Bool) (opts : List OptionDesc) (name : Str) (approx longIcase shortIcase : Bool) :
    Option (Except Fail (Option OptionDesc)) := do
  let (found, full, apx) ← findLoop signed name approx longIcase shortIcase opts none [] []
  some (if full.length > 1 then .error (errAmbiguous full)
    else if full = [] ∧ apx.length > 1 then .error (errAmbiguous apx)
    else .ok found)

/-- `validate(any&, const vector<string>&, bool*, int)` (src/value_semantic.cpp:148-163), after
`check_first_occurrence`. -/
def validateBool (signed : Bool) (xs : List Str) : Option (Except Fail SVal) :=
  match getSingle [] xs true with
  | .error f => some (.error f)
  | .ok s => do
    let l ← lower signed s
    some (match boolWord l with
      | some b => .ok (.bool b)
      | none => .error (errInvalidBool l))

/-- `wchar_t(tolower(c))` for a `wchar_t c` (src/value_semantic.cpp:177): the narrow function, on a wide character. -/
def wtolower (n : Nat) : Option Nat :=
  if domain (n : Int) then some (if 65 ≤ n ∧ n ≤ 90 then n + 32 else n) else none

/-- The loop at src/value_semantic.cpp:176-177. -/
def wlower : WStr → Option WStr
  | [] => some []
  | c :: cs => do
    let l ← wtolower c
    let ls ← wlower cs
    some (l :: ls)

/-- `validate(any&, const vector<wstring>&, bool*, int)` (src/value_semantic.cpp:171-185), after
`check_first_occurrence`. -/
def wvalidateBool (env : Env) (xs : List WStr) : Option (Except Fail SVal) :=
  match getSingle [] xs true with
  | .error f => some (.error f)
  | .ok s => do
    let l ← wlower s
    some (match wboolWord l with
      | some b => .ok (.bool b)
      | none => .error (errInvalidBool (convertValue env l)))

/-- `prefix_name_mapper::operator()` (src/parsers.cpp:227-239). -/
def prefixMapper (signed : Bool) (pre s : Str) : Option Str :=
  if findSub s pre = some 0 then lower signed (s.drop pre.length) else some []

/-- `isspace((unsigned char)c)` (src/winmain.cpp:30, 64, 69): the conversion to `unsigned char` gives the byte. -/
def isspace (c : Char) : Option Bool := if domain ((c.toNat % 256 : Nat) : Int) then some (isSpace c) else none

/-- The loop skipping spaces at the beginning (src/winmain.cpp:29-31). -/
def skipSpaces : Str → Option Str
  | [] => some []
  | c :: cs => do
    let sp ← isspace c
    if sp then skipSpaces cs else some (c :: cs)

/-- The main loop of `split_winmain` and its epilogue (src/winmain.cpp:40-87); `skipping`: in the loop at 69. -/
def winLoop : Str → Bool → WinState → Option (List Str)
  | [], _, st =>
    let current := if st.backslashes ≠ 0 then st.current ++ List.replicate st.backslashes '\\' else st.current
    some (if current ≠ [] ∨ st.insideQuoted ∨ st.emptyQuote then [current] else [])
  | c :: cs, skipping, st => do
    let skip ← if skipping then isspace c else some false
    if skip then winLoop cs true st
    else if c = '"' then
      let current := st.current ++ List.replicate (st.backslashes / 2) '\\'
      if st.backslashes % 2 = 0 then
        winLoop cs false { current, emptyQuote := st.insideQuoted && current.isEmpty
                           insideQuoted := !st.insideQuoted, backslashes := 0 }
      else winLoop cs false { st with current := current ++ ['"'], backslashes := 0 }
    else if c = '\\' then winLoop cs false { st with backslashes := st.backslashes + 1 }
    else
      let current := if st.backslashes ≠ 0 then st.current ++ List.replicate st.backslashes '\\' else st.current
      let sp ← isspace c
      if sp && !st.insideQuoted then
        (winLoop cs true { current := [], insideQuoted := st.insideQuoted, emptyQuote := false, backslashes := 0 }).map
          (current :: ·)
      else winLoop cs false { st with current := current ++ [c], backslashes := 0 }

/-- `split_winmain` (src/winmain.cpp:23-88). -/
def splitWinmain (input : Str) : Option (List Str) := do
  let s ← skipSpaces input
  match s with
  | [] => some []
  | s => winLoop s false {}

end Ctype
end PO
