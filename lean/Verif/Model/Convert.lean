import Verif.Model.Value
/-
Character conversion: src/convert.cpp, and the UTF-8 facet it uses
(boost/detail/utf8_codecvt_facet.ipp, included by src/utf8_codecvt_facet.cpp; not part of /repo).
-/
namespace PO

/-- Result of a call of `codecvt::in`/`out`. -/
inductive CvtStatus
  | ok | partial_ | error
  deriving DecidableEq, Repr

/-- A `codecvt::in`/`out` call on the remaining source with `room` target places: status, remaining
source, characters produced. The conversion state is not used by the stateless facets modelled. -/
abbrev Facet (α β : Type) := List α → Nat → CvtStatus × List α × List β

/-- The size of the local buffer (src/convert.cpp:60). -/
def bufferSize : Nat := 32

/-- `detail::convert` (src/convert.cpp:42-85), at most `fuel` rounds of the loop. -/
def convertLoop {α β : Type} (facet : Facet α β) (room : Nat) :
    Nat → List α → Except Fail (List β)
  | _, [] => .ok []
  | 0, _ :: _ => .error .fuel
  | fuel + 1, s =>
    match facet s room with
    | (.error, _, _) => .error .conversion
    | (_, rest, out) =>
      if out = [] then .error .conversion
      else
        match convertLoop facet room fuel rest with
        | .error f => .error f
        | .ok more => .ok (out ++ more)

/-- `detail::convert`; the rounds are bounded by the length of the source (each one consumes). -/
def convert {α β : Type} (facet : Facet α β) (s : List α) : Except Fail (List β) :=
  convertLoop facet bufferSize (s.length + 1) s

/-- A facet that keeps a conversion state (`std::mbstate_t`) from call to call: status, the state after it, remaining source, characters
produced. -/
abbrev StateFacet (σ α β : Type) := σ → List α → Nat → CvtStatus × σ × List α × List β

/-- `detail::convert` (src/convert.cpp:42-85) with the conversion state and the result so far, at most `fuel` rounds of the loop. -/
def convertStateLoop {σ α β : Type} (facet : StateFacet σ α β) : Nat → σ → List α → List β → Except Fail (List β)
  | _, _, [], result => .ok result
  | 0, _, _ :: _, _ => .error .fuel
  | fuel + 1, state, c :: s, result =>
    match facet state (c :: s) bufferSize with
    | (.error, _, _, _) => .error .conversion
    | (_, state', rest, out) =>
      if out = [] then .error .conversion
      else convertStateLoop facet fuel state' rest (result ++ out)

/-- `from_8_bit` and `to_8_bit` with the facet of a locale (src/convert.cpp:91-110); `init` is `std::mbstate_t()`. The facets of UTF-8
below have no state. -/
def convertState {σ α β : Type} (facet : StateFacet σ α β) (init : σ) (s : List α) : Except Fail (List β) :=
  convertStateLoop facet (s.length + 1) init s []

/-! ### The UTF-8 facet -/

/-- `get_cont_octet_out_count` for a 4-byte `wchar_t`. -/
def contOut (w : Nat) : Nat :=
  if w < 0x80 then 0 else if w < 0x800 then 1 else if w < 0x10000 then 2
  else if w < 0x200000 then 3 else if w < 0x4000000 then 4 else 5

/-- `octet1_modifier_table`. -/
def octet1 : Nat → Nat
  | 0 => 0 | 1 => 0xc0 | 2 => 0xe0 | 3 => 0xf0 | 4 => 0xf8 | _ => 0xfc

/-- The continuing octets of `do_out`: `n` of them. -/
def contOctets (w : Nat) : Nat → List Nat
  | 0 => []
  | n + 1 => (0x80 + (w / 64 ^ n) % 64) :: contOctets w n

/-- The octets `do_out` writes for one wide character. -/
def encodeChar (w : Nat) : List Nat :=
  (octet1 (contOut w) + w / 64 ^ contOut w) :: contOctets w (contOut w)

/-- `do_out`: stops before a character whose octets do not fit in the remaining room. -/
def utf8Out : Facet Nat Nat
  | [], _ => (.ok, [], [])
  | w :: ws, room =>
    let o := encodeChar w
    if o.length ≤ room then
      let (st, rest, out) := utf8Out ws (room - o.length)
      (st, rest, o ++ out)
    else (.partial_, w :: ws, [])

/-- `invalid_leading_octet`. -/
def invalidLead (b : Nat) : Bool := (0x7f < b && b < 0xc0) || b > 0xfd

/-- `get_cont_octet_count`. -/
def contIn (b : Nat) : Nat :=
  if b ≤ 0x7f then 0 else if 0xc0 ≤ b ∧ b ≤ 0xdf then 1 else if 0xe0 ≤ b ∧ b ≤ 0xef then 2
  else if 0xf0 ≤ b ∧ b ≤ 0xf7 then 3 else if 0xf8 ≤ b ∧ b ≤ 0xfb then 4 else 5

/-- Reading the continuing octets of `do_in`: accumulated value and rest, `none` if one is invalid,
`some none` if the source ends first. -/
def readCont : Nat → Nat → List Nat → Option (Option (Nat × List Nat))
  | 0, acc, bs => some (some (acc, bs))
  | _ + 1, _, [] => some none
  | n + 1, acc, b :: bs =>
    if b < 0x80 || 0xbf < b then none else readCont n (acc * 64 + (b - 0x80)) bs

/-- `do_in`, at most `room` target characters. -/
def utf8In : Nat → List Nat → CvtStatus × List Nat × List Nat
  | _, [] => (.ok, [], [])
  | 0, b :: bs => (.partial_, b :: bs, [])
  | room + 1, b :: bs =>
    if invalidLead b then (.error, b :: bs, [])
    else
      match readCont (contIn b) (b - octet1 (contIn b)) bs with
      | none => (.error, b :: bs, [])
      | some none => (.partial_, b :: bs, [])
      | some (some (w, rest)) =>
        let (st, rest', out) := utf8In room rest
        (st, rest', w :: out)

/-- `to_utf8` (src/convert.cpp:125-129) with octets as numbers. -/
def toUtf8 (w : WStr) : Except Fail (List Nat) := convert utf8Out w

/-- `from_utf8` (src/convert.cpp:119-123). -/
def fromUtf8 (bs : List Nat) : Except Fail WStr := convert (fun s room => utf8In room s) bs

/-- Octets as a `std::string`. -/
def octetsToStr (bs : List Nat) : Str := bs.map Char.ofNat

/-- A `std::string` as octets. -/
def strToOctets (s : Str) : List Nat := s.map Char.toNat

/-- The facilities with the library's UTF-8 conversion (src/convert.cpp:119-129). -/
def Env.withUtf8 (env : Env) : Env :=
  { env with
    fromUtf8 := fun s => (PO.fromUtf8 (strToOctets s)).toOption
    toUtf8 := fun w => (PO.toUtf8 w).toOption.map octetsToStr }

end PO
