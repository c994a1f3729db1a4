/-
Strings and ordered containers.

`std::string` is a `List Char` (a byte `b` is the character with code `b`).
-/
namespace PO

abbrev Str := List Char

/-- `str% "abc"` is the list of characters `['a','b','c']` (a literal that reduces well). -/
syntax (name := strLit) "str% " str : term

open Lean in
macro_rules
  | `(str% $s:str) => do
    let cs := s.getString.toList.toArray.map (fun c => Syntax.mkCharLit c)
    `(([$cs,*] : List Char))

/-- `std::string::find(char)`: index of the first occurrence. -/
def findChar : Str → Char → Option Nat
  | [], _ => none
  | x :: xs, c => if x = c then some 0 else (findChar xs c).map (· + 1)

/-- `std::string::find(const std::string&)`: index of the first occurrence of `p`. -/
def findSub : Str → Str → Option Nat
  | [], p => if p = [] then some 0 else none
  | x :: xs, p =>
    if p.isPrefixOf (x :: xs) then some 0 else (findSub xs p).map (· + 1)

/-- `std::string::substr(pos, n)`. -/
def substr (s : Str) (pos n : Nat) : Str := (s.drop pos).take n

/-- `tolower_` (src/options_description.cpp:34-43) in the "C" locale; also the loops at
src/value_semantic.cpp:154-155 and src/parsers.cpp:231-236. Bytes outside `A`-`Z` are unchanged. -/
def toLower (s : Str) : Str := s.map Char.toLower

/-- Characters trimmed by `trim_ws` (src/config_file.cpp:72,76): `" \t\r\n"`. -/
def isWs (c : Char) : Bool := c == ' ' || c == '\t' || c == '\r' || c == '\n'

/-- `trim_ws` (src/config_file.cpp:69-79): the substring from the first to the last character not
in `" \t\r\n"`, empty if there is none. -/
def trimWs (s : Str) : Str := ((s.dropWhile isWs).reverse.dropWhile isWs).reverse

/-- Successive results of `std::getline(is, name, sep)` until it fails
(loop at src/options_description.cpp:195-200; lines of a config stream,
include/boost/program_options/detail/config_file.hpp:165-176).
`cur` is what has been extracted for the current line. At end of input `getline` fails iff no
character was extracted. -/
def getlinesAux (sep : Char) : Str → Str → List Str
  | [], cur => if cur = [] then [] else [cur]
  | c :: cs, cur => if c = sep then cur :: getlinesAux sep cs [] else getlinesAux sep cs (cur ++ [c])

def getlines (sep : Char) (s : Str) : List Str := getlinesAux sep s []

/-- `operator<` on `std::string`: lexicographic by code unit (unsigned bytes). -/
def strLt : Str → Str → Bool
  | _, [] => false
  | [], _ :: _ => true
  | a :: as, b :: bs => if a.toNat < b.toNat then true else if b.toNat < a.toNat then false else strLt as bs

/-! ### `std::set<std::string>`: a strictly increasing list -/

abbrev SSet := List Str

/-- `std::set::lower_bound`: position of the first element not less than `s` (`length` is `end()`). -/
def SSet.lowerBound : SSet → Str → Nat
  | [], _ => 0
  | x :: xs, s => if strLt x s then SSet.lowerBound xs s + 1 else 0

/-- `std::set::insert`. -/
def SSet.insert : SSet → Str → SSet
  | [], s => [s]
  | x :: xs, s => if strLt x s then x :: SSet.insert xs s else if strLt s x then s :: x :: xs else x :: xs

/-- `std::set::count`/`find` ≠ end. -/
def SSet.has (m : SSet) (s : Str) : Bool := m.any (fun x => x == s)

/-- Insertion of a range, as in `set(first, last)` or `insert(first, last)`. -/
def SSet.insertAll (m : SSet) (xs : List Str) : SSet := xs.foldl SSet.insert m

/-! ### `std::map<std::string, α>`: association list with strictly increasing keys -/

abbrev SMap (α : Type) := List (Str × α)

/-- `std::map::find`. -/
def SMap.get? {α : Type} : SMap α → Str → Option α
  | [], _ => none
  | (k, v) :: m, s => if k = s then some v else SMap.get? m s

/-- `m[s] = v`: overwrite or insert at the ordered place. -/
def SMap.set {α : Type} : SMap α → Str → α → SMap α
  | [], s, v => [(s, v)]
  | (k, w) :: m, s, v =>
    if k = s then (k, v) :: m
    else if strLt k s then (k, w) :: SMap.set m s v
    else (s, v) :: (k, w) :: m

/-- `m.count(s) != 0`. -/
def SMap.has {α : Type} (m : SMap α) (s : Str) : Bool := (SMap.get? m s).isSome

end PO
