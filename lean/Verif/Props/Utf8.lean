import Verif.Props.Convert
import Verif.Spec.Utf8
/-
C86: which octets are read as which characters.
-/
namespace PO
open Spec

theorem readCont_iff (n acc : Nat) (bs : List Nat) (w : Nat) (rest : List Nat) :
    readCont n acc bs = some (some (w, rest)) ↔
      ∃ ds : List Nat, ds.length = n ∧ (∀ d ∈ ds, d < 64) ∧ bs = ds.map (0b10000000 + ·) ++ rest ∧ w = ds.foldl (fun a d => 64 * a + d) acc := by
  induction n generalizing acc bs with
  | zero =>
    unfold readCont
    constructor
    · intro h
      cases h
      exact ⟨[], rfl, by simp, rfl, rfl⟩
    · rintro ⟨ds, h1, -, h2, h3⟩
      rw [List.length_eq_zero_iff] at h1
      subst h1
      rw [h2, h3]
      rfl
  | succ n ih =>
    cases bs with
    | nil =>
      simp only [readCont]
      constructor
      · intro h; cases h
      · rintro ⟨ds, h1, -, h2, h3⟩
        cases ds with
        | nil => simp at h1
        | cons d ds => simp at h2
    | cons b bs =>
      simp only [readCont]
      split
      case isTrue h =>
        constructor
        · intro h; cases h
        · rintro ⟨ds, h1, h2, h3, -⟩
          cases ds with
          | nil => simp at h1
          | cons d ds =>
            rw [List.map_cons, List.cons_append, List.cons.injEq] at h3
            have := h2 d (by simp)
            rw [Bool.or_eq_true, decide_eq_true_iff, decide_eq_true_iff] at h
            omega
      case isFalse h =>
        rw [ih]
        have hb : 128 ≤ b ∧ b ≤ 191 := by
          rw [Bool.not_eq_true, Bool.or_eq_false_iff, decide_eq_false_iff_not, decide_eq_false_iff_not] at h
          omega
        constructor
        · rintro ⟨ds, h1, h2, h3, h4⟩
          refine ⟨(b - 128) :: ds, by rw [List.length_cons, h1], ?_, ?_, ?_⟩
          · intro d hd
            rcases List.mem_cons.1 hd with hd | hd
            · omega
            · exact h2 d hd
          · rw [h3, List.map_cons, List.cons_append, Nat.add_sub_cancel' hb.1]
          · rw [h4, List.foldl_cons, Nat.mul_comm acc]
        · rintro ⟨ds, h1, h2, h3, h4⟩
          cases ds with
          | nil => simp at h1
          | cons d ds =>
            rw [List.map_cons, List.cons_append, List.cons.injEq] at h3
            refine ⟨ds, by simpa using h1, fun x hx => h2 x (by simp [hx]), h3.2, ?_⟩
            rw [h4, List.foldl_cons, h3.1, Nat.mul_comm acc, Nat.add_sub_cancel_left]

/-- The octets a character may begin with. -/
theorem lead_iff (b n : Nat) (hn : n ≤ 5) : (invalidLead b = false ∧ contIn b = n) ↔ ∃ hi, hi < (lead n).2 ∧ b = (lead n).1 + hi := by
  have key : (invalidLead b = false ∧ contIn b = n) ↔ ((lead n).1 ≤ b ∧ b < (lead n).1 + (lead n).2) := by
    have h5 : n = 0 ∨ n = 1 ∨ n = 2 ∨ n = 3 ∨ n = 4 ∨ n = 5 := by omega
    unfold invalidLead contIn
    rcases h5 with rfl | rfl | rfl | rfl | rfl | rfl <;> simp only [lead, Bool.or_eq_false_iff, Bool.and_eq_false_iff, decide_eq_false_iff_not] <;>
      (repeat' split) <;> omega
  rw [key]
  constructor
  · intro h
    exact ⟨b - (lead n).1, by omega, by omega⟩
  · rintro ⟨hi, h1, h2⟩
    omega

theorem octet1_lead (n : Nat) : octet1 n = (lead n).1 := by
  match n with
  | 0 | 1 | 2 | 3 | 4 => rfl
  | n + 5 => rfl

theorem contIn_le (b : Nat) : contIn b ≤ 5 := by
  unfold contIn
  repeat' split
  all_goals omega

theorem utf8Decoder_iff (s out r : List Nat) : utf8Decoder s = .char out r ↔ ∃ p w, Coded p w ∧ s = p ++ r ∧ out = [w] := by
  cases s with
  | nil =>
    constructor
    · intro h; cases h
    · rintro ⟨p, w, h, h1, -⟩
      cases h
      simp at h1
  | cons b bs =>
    unfold utf8Decoder
    dsimp only
    constructor
    · intro h
      split at h
      · cases h
      · rename_i hb
        split at h
        · cases h
        · cases h
        · rename_i w rest hr
          cases h
          obtain ⟨ds, h1, h2, h3, h4⟩ := (readCont_iff _ _ _ _ _).1 hr
          obtain ⟨hi, h5, h6⟩ := (lead_iff b (contIn b) (contIn_le b)).1 ⟨by simpa using hb, rfl⟩
          rw [octet1_lead, show b - (lead (contIn b)).1 = hi by omega] at h4
          rw [← h1] at h5 h6
          refine ⟨b :: ds.map (0b10000000 + ·), w, ?_, ?_, rfl⟩
          · rw [h4, h6]
            exact .intro hi ds (by rw [h1]; exact contIn_le b) h5 h2
          · rw [h3]; rfl
    · rintro ⟨p, w, h, h1, rfl⟩
      cases h with
      | intro hi ds hn hh hd =>
        rw [List.cons_append, List.cons.injEq] at h1
        obtain ⟨h1, h2⟩ := h1
        obtain ⟨h3, h4⟩ := (lead_iff b ds.length hn).2 ⟨hi, hh, h1⟩
        rw [if_neg (by simp [h3]), h4]
        have : readCont ds.length (b - octet1 ds.length) bs = some (some (ds.foldl (fun a d => 64 * a + d) hi, r)) := by
          rw [readCont_iff]
          refine ⟨ds, rfl, hd, h2, ?_⟩
          rw [octet1_lead, show b - (lead ds.length).1 = hi by omega]
        rw [this]

theorem run_decoder_iff (s out : List Nat) : Run utf8Decoder s out [] ↔ Encodes Coded s out := by
  constructor
  · intro h
    generalize e : ([] : List Nat) = r at h
    induction h with
    | stop s => subst e; exact ⟨[], rfl, .nil⟩
    | char s o r out rest hc _ ih =>
      obtain ⟨parts, h1, h2⟩ := ih e
      obtain ⟨p, w, h3, h4, rfl⟩ := (utf8Decoder_iff _ _ _).1 hc
      exact ⟨p :: parts, by rw [h4, h1]; rfl, .cons h3 h2⟩
  · rintro ⟨parts, rfl, h⟩
    induction h with
    | nil => exact .stop _
    | @cons p w parts ws h1 _ ih =>
      rw [List.flatten_cons]
      exact .char _ [w] parts.flatten ws [] ((utf8Decoder_iff _ _ _).2 ⟨p, w, h1, rfl, rfl⟩) ih

/-- **C86.** Octets are read as a text exactly if they are the codes of its characters, one after the other; not necessarily the shortest
codes. -/
theorem C86_decoded (bs : List Nat) (ws : WStr) : fromUtf8 bs = .ok ws ↔ Encodes Coded bs ws :=
  (C56_chunks utf8Decoder_fits utf8In_implements bs ws).trans (run_decoder_iff bs ws)

/-- All others are refused. -/
theorem C86_refused (bs : List Nat) (f : Fail) : fromUtf8 bs = .error f ↔ f = .conversion ∧ ¬ ∃ ws, Encodes Coded bs ws := by
  constructor
  · intro h
    refine ⟨((C56_failure utf8Decoder_fits utf8In_implements bs f).1 h).1, ?_⟩
    rintro ⟨ws, hw⟩
    rw [(C86_decoded bs ws).2 hw] at h
    cases h
  · rintro ⟨rfl, h⟩
    cases e : fromUtf8 bs with
    | ok ws => exact absurd ⟨ws, (C86_decoded bs ws).1 e⟩ h
    | error f => rw [((C56_failure utf8Decoder_fits utf8In_implements bs f).1 e).1]

/-! ### The encoder -/

theorem foldl_digits (ds ds' : List Nat) (a a' : Nat) (hl : ds.length = ds'.length) (hd : ∀ d ∈ ds, d < 64) (hd' : ∀ d ∈ ds', d < 64)
    (h : ds.foldl (fun a d => 64 * a + d) a = ds'.foldl (fun a d => 64 * a + d) a') : a = a' ∧ ds = ds' := by
  induction ds generalizing ds' a a' with
  | nil =>
    cases ds' with
    | nil => exact ⟨h, rfl⟩
    | cons d' ds' => simp at hl
  | cons d ds ih =>
    cases ds' with
    | nil => simp at hl
    | cons d' ds' =>
      obtain ⟨h1, h2⟩ := ih ds' _ _ (by simpa using hl) (fun x hx => hd x (by simp [hx])) (fun x hx => hd' x (by simp [hx])) h
      have := hd d (by simp)
      have := hd' d' (by simp)
      have h1 : 64 * a + d = 64 * a' + d' := h1
      have h3 : d = d' := by omega
      exact ⟨by omega, by rw [h2, h3]⟩

theorem foldl_lt (ds : List Nat) (a k : Nat) (hd : ∀ d ∈ ds, d < 64) (ha : a < k) :
    ds.foldl (fun a d => 64 * a + d) a < k * 64 ^ ds.length := by
  induction ds generalizing a k with
  | nil => simpa using ha
  | cons d ds ih =>
    have := ih (64 * a + d) (k * 64) (fun x hx => hd x (by simp [hx])) (by have := hd d (by simp); omega)
    rw [List.foldl_cons, List.length_cons, Nat.pow_succ, Nat.mul_comm (64 ^ ds.length), ← Nat.mul_assoc]
    exact this

/-- Codes of the same length are the same. -/
theorem coded_unique {p q : List Nat} {w : Nat} (hp : Coded p w) (hq : Coded q w) (hl : p.length = q.length) : p = q := by
  generalize e : w = w' at hq
  cases hp with
  | intro hi ds hn hh hd =>
    cases hq with
    | intro hi' ds' hn' hh' hd' =>
      have hl : ds.length = ds'.length := by simpa using hl
      obtain ⟨rfl, rfl⟩ := foldl_digits _ _ _ _ hl hd hd' e
      rfl

theorem encodeChar_coded (w : Nat) (hw : w < 2 ^ 31) : Coded (encodeChar w) w := by
  have := utf8Decoder_encodeChar w hw []
  obtain ⟨p, w', h1, h2, h3⟩ := (utf8Decoder_iff _ _ _).1 this
  cases h3
  rw [List.append_nil, List.append_nil] at h2
  rwa [h2]

theorem coded_length {p : List Nat} {w : Nat} (h : Coded p w) : contOut w + 1 ≤ p.length := by
  cases h with
  | intro hi ds hn hh hd =>
    have := foldl_lt ds hi _ hd hh
    rw [List.length_cons, List.length_map]
    generalize ds.foldl (fun a d => 64 * a + d) hi = w at *
    generalize ds.length = n at *
    have h5 : n = 0 ∨ n = 1 ∨ n = 2 ∨ n = 3 ∨ n = 4 ∨ n = 5 := by omega
    unfold contOut
    rcases h5 with rfl | rfl | rfl | rfl | rfl | rfl <;> simp only [lead, Nat.reducePow, Nat.reduceMul] at this <;> (repeat' split) <;> omega

theorem shortest_iff (p : List Nat) (w : Nat) (hw : w < 2 ^ 31) : Shortest p w ↔ p = encodeChar w := by
  have hlen : (encodeChar w).length = contOut w + 1 := by rw [encodeChar, List.length_cons, contOctets_length]
  constructor
  · rintro ⟨h1, h2⟩
    refine coded_unique h1 (encodeChar_coded w hw) ?_
    have := h2 _ (encodeChar_coded w hw)
    have := coded_length h1
    omega
  · rintro rfl
    refine ⟨encodeChar_coded w hw, fun q hq => ?_⟩
    rw [hlen]
    exact coded_length hq

theorem encodes_shortest (bs ws : List Nat) (hw : ∀ w ∈ ws, w < 2 ^ 31) : Encodes Shortest bs ws ↔ bs = ws.flatMap encodeChar := by
  constructor
  · rintro ⟨parts, rfl, h⟩
    induction h with
    | nil => rfl
    | @cons p w parts ws h1 _ ih =>
      rw [List.flatten_cons, List.flatMap_cons, ih fun x hx => hw x (by simp [hx]), (shortest_iff p w (hw w (by simp))).1 h1]
  · rintro rfl
    refine ⟨ws.map encodeChar, by rw [List.flatMap_def], ?_⟩
    induction ws with
    | nil => exact .nil
    | cons w ws ih => exact .cons ((shortest_iff _ w (hw w (by simp))).2 rfl) (ih fun x hx => hw x (by simp [hx]))

/-- Texts are written with the shortest codes. -/
theorem C86_encoded (ws : WStr) (hw : ∀ w ∈ ws, w < 2 ^ 31) (bs : List Nat) : toUtf8 ws = .ok bs ↔ Encodes Shortest bs ws := by
  rw [encodes_shortest bs ws hw]
  have h : toUtf8 ws = .ok (ws.flatMap encodeChar) := (C56_chunks utf8Encoder_fits utf8Out_implements _ _).2 (Run_encoder ws)
  rw [h]
  constructor
  · intro e; cases e; rfl
  · rintro rfl; rfl

example : Encodes Shortest [0x48, 0xe2, 0x82, 0xac] [0x48, 0x20ac] := (C86_encoded [0x48, 0x20ac] (by decide) _).1 rfl

/-- A code that is longer than needed is read all the same. -/
example : fromUtf8 [0xc0, 0x80] = .ok [0] ∧ toUtf8 [0] = .ok [0] := ⟨rfl, rfl⟩

/-- So are halves of surrogate pairs. -/
example : Encodes Coded [0xed, 0xa0, 0x80] [0xd800] := (C86_decoded _ _).1 rfl

example : ¬ ∃ ws, Encodes Coded [0x48, 0xe2, 0x82] ws := ((C86_refused [0x48, 0xe2, 0x82] .conversion).1 rfl).2

end PO
