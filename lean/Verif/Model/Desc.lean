import Verif.Model.Value
/-
Option descriptions: src/options_description.cpp:30-415.
-/
namespace PO

/-- `option_description` (options_description.hpp:50-166). -/
structure OptionDesc where
  shortName : Str
  longNames : List Str
  description : Str
  semantic : ValueSemantic

/-- `match_result`. -/
inductive MatchResult
  | noMatch | fullMatch | approximateMatch
  deriving DecidableEq, Repr

namespace OptionDesc

/-- Body of the loop over long names in `match` (src/options_description.cpp:83-113), with the
`break` on a full match. `option` is `local_option`. -/
def matchLongs (option : Str) (approx longIcase : Bool) : List Str → MatchResult → MatchResult
  | [], r => r
  | n :: ns, r =>
    let local_ := if longIcase then toLower n else n
    if local_ = [] then matchLongs option approx longIcase ns r
    else
      let r1 :=
        if r = .noMatch ∧ local_.getLast? = some '*' then
          if findSub option (substr local_ 0 (local_.length - 1)) = some 0 then .approximateMatch else r
        else r
      if local_ = option then .fullMatch
      else if approx then
        if findSub local_ option = some 0 then matchLongs option approx longIcase ns .approximateMatch
        else matchLongs option approx longIcase ns r1
      else matchLongs option approx longIcase ns r1

/-- `option_description::match` (src/options_description.cpp:74-126). -/
def «match» (d : OptionDesc) (option : Str) (approx longIcase shortIcase : Bool) : MatchResult :=
  let localOption := if longIcase then toLower option else option
  let r := matchLongs localOption approx longIcase d.longNames .noMatch
  if r = .fullMatch then r
  else
    let localShort := if shortIcase then toLower d.shortName else d.shortName
    if localShort = localOption then .fullMatch else r

/-- `option_description::key` (src/options_description.cpp:128-147). -/
def key (d : OptionDesc) (option : Str) : Str :=
  match d.longNames with
  | n :: _ => if (findChar n '*').isSome then option else n
  | [] => d.shortName

/-- `option_description::canonical_display_name` (src/options_description.cpp:149-172). -/
def canonicalDisplayName (d : OptionDesc) (prefixStyle : Nat) : Str :=
  let short (k : Unit → Str) : Str :=
    match d.shortName with
    | [_, c] =>
      if prefixStyle = Style.allowSlashForShort then ['/', c]
      else if prefixStyle = Style.allowDashForShort then ['-', c]
      else k ()
    | _ => k ()
  match d.longNames with
  | n :: _ =>
    if prefixStyle = Style.allowLong then str% "--" ++ n
    else if prefixStyle = Style.allowLongDisguise then str% "-" ++ n
    else short (fun _ => n)
  | [] => short (fun _ => d.shortName)

/-- `option_description::long_name` (src/options_description.cpp:175-180). -/
def longName (d : OptionDesc) : Str :=
  match d.longNames with
  | n :: _ => n
  | [] => []

/-- `option_description::set_names` (src/options_description.cpp:191-220); the old short name
survives when the new names have none. -/
def setNames (d : OptionDesc) (names : Str) : Except Fail OptionDesc :=
  let ns := getlines ',' names
  if ns = [] then .error (.ub .noNames)
  else if ns.length > 1 then
    match ns.getLast? with
    | some [c] =>
      let longs := ns.dropLast
      .ok { d with shortName := ['-', c], longNames := if longs = [[]] then [] else longs }
    | _ => .ok { d with longNames := ns }
  else .ok { d with longNames := ns }

/-- The constructor (src/options_description.cpp:52-68). -/
def make (names : Str) (semantic : ValueSemantic) (description : Str := []) : Except Fail OptionDesc :=
  setNames { shortName := [], longNames := [], description, semantic } names

end OptionDesc

/-- The loop of `find_nothrow` (src/options_description.cpp:380-402), accumulating
(`found`, `full_matches`, `approximate_matches`); `had_full_match` is `full ≠ []`. -/
def findLoop (name : Str) (approx longIcase shortIcase : Bool) :
    List OptionDesc → Option OptionDesc → List Str → List Str →
    Option OptionDesc × List Str × List Str
  | [], found, full, apx => (found, full, apx)
  | d :: ds, found, full, apx =>
    match d.match name approx longIcase shortIcase with
    | .noMatch => findLoop name approx longIcase shortIcase ds found full apx
    | .fullMatch =>
      findLoop name approx longIcase shortIcase ds (some d) (full ++ [d.key name]) apx
    | .approximateMatch =>
      findLoop name approx longIcase shortIcase ds (if full = [] then some d else found) full
        (apx ++ [d.key name])

/-- `options_description::find_nothrow` (src/options_description.cpp:366-415). -/
def findNothrow (opts : List OptionDesc) (name : Str) (approx longIcase shortIcase : Bool) :
    Except Fail (Option OptionDesc) :=
  let (found, full, apx) := findLoop name approx longIcase shortIcase opts none [] []
  if full.length > 1 then .error (errAmbiguous full)
  else if full = [] ∧ apx.length > 1 then .error (errAmbiguous apx)
  else .ok found

/-- `options_description::find` (src/options_description.cpp:347-358). -/
def findOrThrow (opts : List OptionDesc) (name : Str) (approx longIcase shortIcase : Bool) :
    Except Fail OptionDesc :=
  match findNothrow opts name approx longIcase shortIcase with
  | .error f => .error f
  | .ok none => .error errUnknown
  | .ok (some d) => .ok d

/-- `options_description` (options_description.hpp:202-300). -/
structure OptionsDesc where
  caption : Str
  lineLength : Nat
  minDescLen : Nat
  options : List OptionDesc
  belong : List Bool
  groups : List OptionsDesc

namespace OptionsDesc

/-- Constructor (src/options_description.cpp:300-318). `m_line_length - 1` is computed in
`unsigned` and wraps for 0. -/
def make (caption : Str) (lineLength : Nat := 80) (minDescLen : Nat := 40) : Except Fail OptionsDesc :=
  if minDescLen < (if lineLength = 0 then uintMax else lineLength - 1) then
    .ok { caption, lineLength, minDescLen, options := [], belong := [], groups := [] }
  else .error (.ub .formatAssert)

/-- `add(shared_ptr<option_description>)` (src/options_description.cpp:320-325). -/
def addOption (o : OptionsDesc) (d : OptionDesc) : OptionsDesc :=
  { o with options := o.options ++ [d], belong := o.belong ++ [false] }

/-- `add(const options_description&)` (src/options_description.cpp:327-339). -/
def addGroup (o g : OptionsDesc) : OptionsDesc :=
  { o with groups := o.groups ++ [g]
           options := o.options ++ g.options
           belong := o.belong ++ g.options.map (fun _ => true) }

end OptionsDesc
end PO
