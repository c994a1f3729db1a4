import Mathlib.Data.List.Forall2
/-
The encoding of wide characters in octets: UTF-8 with up to six octets per character, as in RFC 2279.
-/
namespace PO.Spec

/-- The first octet of a character with `n` further ones: the bits that mark it, and how many values it leaves. -/
def lead : Nat → Nat × Nat
  | 0 => (0b00000000, 128)
  | 1 => (0b11000000, 32)
  | 2 => (0b11100000, 16)
  | 3 => (0b11110000, 8)
  | 4 => (0b11111000, 4)
  | _ => (0b11111100, 2)

/-- The octets of one character: the high bits `hi` in the first one, and six bits in each of the others. -/
inductive Coded : List Nat → Nat → Prop
  | intro (hi : Nat) (ds : List Nat) (hn : ds.length ≤ 5) (hh : hi < (lead ds.length).2) (hd : ∀ d ∈ ds, d < 64) :
      Coded (((lead ds.length).1 + hi) :: ds.map (0b10000000 + ·)) (ds.foldl (fun a d => 64 * a + d) hi)

/-- The shortest way to write a character. -/
def Shortest (p : List Nat) (w : Nat) : Prop := Coded p w ∧ ∀ q, Coded q w → p.length ≤ q.length

/-- The octets of a text, character by character. -/
def Encodes (rel : List Nat → Nat → Prop) (bs ws : List Nat) : Prop := ∃ parts, bs = parts.flatten ∧ List.Forall₂ rel parts ws

end PO.Spec
