import Verif.Model.Convert
import Verif.Tests.Util
/-
C56, C57: character conversion.
-/
namespace PO

/-! ### C56: chunked conversion -/

/-- What a codec makes of the front of its source: one character, with its converted form and the
rest; the beginning of a character only; or something that is no character. -/
inductive Front (α β : Type)
  | char (out : List β) (rest : List α)
  | incomplete
  | bad

/-- A per-character codec. -/
abbrev Codec (α β : Type) := List α → Front α β

/-- Character by character, `s` up to `rest` is converted into `out`. -/
inductive Run {α β : Type} (codec : Codec α β) : List α → List β → List α → Prop
  | stop (s) : Run codec s [] s
  | char (s o r out rest) : codec s = .char o r → Run codec r out rest → Run codec s (o ++ out) rest

/-- The contract of `codecvt::in`/`out` for a facet implementing the codec: it converts some
characters into no more than `room` places; reports `ok` if all are converted, `error` if the next one
is bad; and returns `partial` only if the next one is incomplete, or does not fit, or no room is
left. -/
def Implements {α β : Type} (codec : Codec α β) (facet : Facet α β) : Prop :=
  ∀ s room, Run codec s (facet s room).2.2 (facet s room).2.1 ∧ (facet s room).2.2.length ≤ room ∧
    match (facet s room).1 with
    | .ok => (facet s room).2.1 = []
    | .error => codec (facet s room).2.1 = .bad ∧ (facet s room).2.1 ≠ []
    | .partial_ => (facet s room).2.1 ≠ [] ∧
        (codec (facet s room).2.1 = .incomplete ∨ (facet s room).2.2.length = room ∨
          ∃ o r, codec (facet s room).2.1 = .char o r ∧ room < (facet s room).2.2.length + o.length)

/-- Every character takes at least one source unit and has between 1 and 32 target units. -/
def Fits {α β : Type} (codec : Codec α β) : Prop :=
  ∀ s o r, codec s = .char o r → r.length < s.length ∧ 1 ≤ o.length ∧ o.length ≤ 32

section
variable {α β : Type} {codec : Codec α β}

theorem Run.trans {s m r : List α} {o o' : List β} (h : Run codec s o m) (h' : Run codec m o' r) : Run codec s (o ++ o') r := by
  induction h with
  | stop => exact h'
  | char s o1 r1 out rest hc _ ih =>
    rw [List.append_assoc]
    exact .char _ _ _ _ _ hc (ih h')

theorem Run.shorter (hf : Fits codec) {s r : List α} {o : List β} (h : Run codec s o r) :
    r.length ≤ s.length ∧ (o ≠ [] → r.length < s.length) ∧ (o = [] → r = s) := by
  induction h with
  | stop => simp
  | char s o1 r1 out rest hc _ ih =>
    obtain ⟨h1, h2, _⟩ := hf _ _ _ hc
    refine ⟨by omega, fun _ => by omega, ?_⟩
    intro h
    rw [List.append_eq_nil_iff] at h
    rw [h.1] at h2
    simp at h2

/-- Two runs that cannot go on agree. -/
theorem Run.unique {s r r' : List α} {o o' : List β} (h : Run codec s o r) (h' : Run codec s o' r')
    (hr : ∀ x y, codec r ≠ .char x y) (hr' : ∀ x y, codec r' ≠ .char x y) : o = o' ∧ r = r' := by
  induction h generalizing o' with
  | stop s =>
    cases h' with
    | stop => exact ⟨rfl, rfl⟩
    | char _ o1 r1 out _ hc _ => exact absurd hc (hr _ _)
  | char s o1 r1 out rest hc _ ih =>
    cases h' with
    | stop => exact absurd hc (hr' _ _)
    | char _ o2 r2 out2 _ hc2 hrun =>
      rw [hc] at hc2
      cases hc2
      obtain ⟨rfl, rfl⟩ := ih hrun hr
      exact ⟨rfl, rfl⟩

theorem Fits.nil (hf : Fits codec) (o : List β) (r : List α) : codec [] ≠ .char o r := by
  intro h
  have := (hf _ _ _ h).1
  simp at this

theorem convertLoop_run {facet : Facet α β} (hf : Fits codec) (hi : Implements codec facet) (fuel : Nat) (s : List α)
    (hs : s.length < fuel) :
    (∃ out, convertLoop facet bufferSize fuel s = .ok out ∧ Run codec s out []) ∨
    (convertLoop facet bufferSize fuel s = .error .conversion ∧
      ∃ out rest, Run codec s out rest ∧ rest ≠ [] ∧ (codec rest = .bad ∨ codec rest = .incomplete)) := by
  induction fuel generalizing s with
  | zero => omega
  | succ fuel ih =>
    cases s with
    | nil => exact .inl ⟨[], rfl, .stop _⟩
    | cons c cs =>
      rw [convertLoop.eq_3 _ _ _ _ (by simp)]
      obtain ⟨hrun, hlen, hst⟩ := hi (c :: cs) bufferSize
      obtain ⟨hs1, hs2, hs3⟩ := hrun.shorter hf
      generalize facet (c :: cs) bufferSize = res at *
      obtain ⟨st, rest, out⟩ := res
      simp only at *
      have cont : st ≠ .error → out ≠ [] →
          (∃ o, (match convertLoop facet bufferSize fuel rest with
                | .error f => Except.error f
                | .ok more => .ok (out ++ more)) = .ok o ∧ Run codec (c :: cs) o []) ∨
          ((match convertLoop facet bufferSize fuel rest with
                | .error f => Except.error f
                | .ok more => .ok (out ++ more)) = .error .conversion ∧
            ∃ o r, Run codec (c :: cs) o r ∧ r ≠ [] ∧ (codec r = .bad ∨ codec r = .incomplete)) := by
        intro _ hne
        have := hs2 hne
        rcases ih rest (by simp at *; omega) with ⟨o, e, hr⟩ | ⟨e, o, r, hr, h1, h2⟩
        · exact .inl ⟨out ++ o, by rw [e], hrun.trans hr⟩
        · exact .inr ⟨by rw [e], out ++ o, r, hrun.trans hr, h1, h2⟩
      have stuck : st ≠ .error → out = [] → codec (c :: cs) = .incomplete := by
        intro hne ho
        have := hs3 ho
        subst this
        cases st with
        | ok => simp at hst
        | error => exact absurd rfl hne
        | partial_ =>
          rcases hst.2 with h | h | ⟨o, r, h, hl⟩
          · exact h
          · rw [ho] at h; simp [bufferSize] at h
          · have := (hf _ _ _ h).2.2
            rw [ho] at hl; simp [bufferSize] at hl; omega
      cases st with
      | error => exact .inr ⟨rfl, out, rest, hrun, hst.2, .inl hst.1⟩
      | ok =>
        by_cases ho : out = []
        · simp only [if_pos ho]
          exact .inr ⟨trivial, [], c :: cs, .stop _, by simp, .inr (stuck (by simp) ho)⟩
        · simp only [if_neg ho]
          exact cont (by simp) ho
      | partial_ =>
        by_cases ho : out = []
        · simp only [if_pos ho]
          exact .inr ⟨trivial, [], c :: cs, .stop _, by simp, .inr (stuck (by simp) ho)⟩
        · simp only [if_neg ho]
          exact cont (by simp) ho

/-- **C56.** With a facet implementing a per-character codec, `convert` produces exactly the
conversion character by character; -/
theorem C56_chunks {facet : Facet α β} (hf : Fits codec) (hi : Implements codec facet) (s : List α) (out : List β) :
    convert facet s = .ok out ↔ Run codec s out [] := by
  rcases convertLoop_run hf hi (s.length + 1) s (by omega) with ⟨o, e, hr⟩ | ⟨e, o, r, hr, h1, h2⟩
  · rw [show convert facet s = .ok o from e]
    constructor
    · intro h; cases h; exact hr
    · intro h
      rw [(hr.unique h (fun _ _ => hf.nil _ _) (fun _ _ => hf.nil _ _)).1]
  · rw [show convert facet s = _ from e]
    constructor
    · intro h; cases h
    · intro h
      have := (hr.unique h (by rcases h2 with h2 | h2 <;> simp [h2]) (fun _ _ => hf.nil _ _)).2
      exact absurd this h1

/-- ... and fails, always with a conversion error, exactly if after some characters something bad or
incomplete follows. -/
theorem C56_failure {facet : Facet α β} (hf : Fits codec) (hi : Implements codec facet) (s : List α) (f : Fail) :
    convert facet s = .error f ↔ f = .conversion ∧
      ∃ out rest, Run codec s out rest ∧ rest ≠ [] ∧ (codec rest = .bad ∨ codec rest = .incomplete) := by
  rcases convertLoop_run hf hi (s.length + 1) s (by omega) with ⟨o, e, hr⟩ | ⟨e, h⟩
  · rw [show convert facet s = .ok o from e]
    constructor
    · intro h; cases h
    · rintro ⟨_, o', r', hr', h1, h2⟩
      have := (hr.unique hr' (fun _ _ => hf.nil _ _) (by rcases h2 with h2 | h2 <;> simp [h2])).2
      exact absurd this.symm h1
  · rw [show convert facet s = _ from e]
    constructor
    · intro h'; cases h'; exact ⟨rfl, h⟩
    · rintro ⟨rfl, _⟩; rfl
end

/-- The encoder as a per-character codec. -/
def utf8Encoder : Codec Nat Nat
  | [] => .incomplete
  | w :: ws => .char (encodeChar w) ws

/-- The decoder as a per-character codec. -/
def utf8Decoder : Codec Nat Nat
  | [] => .incomplete
  | b :: bs =>
    if invalidLead b then .bad
    else
      match readCont (contIn b) (b - octet1 (contIn b)) bs with
      | none => .bad
      | some none => .incomplete
      | some (some (w, rest)) => .char [w] rest

theorem contOctets_length (w n : Nat) : (contOctets w n).length = n := by
  induction n with
  | zero => rfl
  | succ n ih => simp [contOctets, ih]

theorem contOut_le (w : Nat) : contOut w ≤ 5 := by
  unfold contOut
  repeat' split
  all_goals omega

theorem readCont_shorter (n acc : Nat) (bs : List Nat) (w : Nat) (rest : List Nat) (h : readCont n acc bs = some (some (w, rest))) :
    rest.length ≤ bs.length := by
  induction n generalizing acc bs with
  | zero => cases h; exact Nat.le_refl _
  | succ n ih =>
    cases bs with
    | nil => cases h
    | cons b bs =>
      rw [readCont] at h
      split at h
      · cases h
      · have := ih _ _ h
        simp; omega

theorem utf8Encoder_fits : Fits utf8Encoder := by
  intro s o r h
  cases s with
  | nil => cases h
  | cons w ws =>
    cases h
    have := contOut_le w
    simp [encodeChar, contOctets_length]
    omega

theorem utf8Decoder_fits : Fits utf8Decoder := by
  intro s o r h
  cases s with
  | nil => cases h
  | cons b bs =>
    rw [utf8Decoder] at h
    split at h
    · cases h
    · split at h
      · cases h
      · cases h
      · rename_i w rest hr
        cases h
        have := readCont_shorter _ _ _ _ _ hr
        simp
        omega

/-- The UTF-8 facet meets the contract. -/
theorem utf8Out_implements : Implements utf8Encoder utf8Out := by
  intro s
  induction s with
  | nil => intro room; exact ⟨.stop _, by simp [utf8Out], rfl⟩
  | cons w ws ih =>
    intro room
    rw [utf8Out]
    simp only
    by_cases h : (encodeChar w).length ≤ room
    · rw [if_pos h]
      obtain ⟨h1, h2, h3⟩ := ih (room - (encodeChar w).length)
      refine ⟨.char _ _ _ _ _ rfl h1, by simp only [List.length_append]; exact Nat.add_le_of_le_sub' h h2, ?_⟩
      simp only
      generalize utf8Out ws (room - (encodeChar w).length) = res at *
      obtain ⟨st, rest, out⟩ := res
      cases st with
      | ok => exact h3
      | error => exact h3
      | partial_ =>
        refine ⟨h3.1, ?_⟩
        rcases h3.2 with h | h | ⟨o, r, h, hl⟩
        · exact .inl h
        · exact .inr (.inl (by simp at *; omega))
        · exact .inr (.inr ⟨o, r, h, by simp at *; omega⟩)
    · rw [if_neg h]
      exact ⟨.stop _, by simp, by simp, .inr (.inr ⟨_, _, rfl, by simp; omega⟩)⟩

theorem utf8In_implements : Implements utf8Decoder (fun s room => utf8In room s) := by
  intro s room
  simp only
  induction room generalizing s with
  | zero =>
    cases s with
    | nil => exact ⟨.stop _, by simp [utf8In], rfl⟩
    | cons b bs => exact ⟨.stop _, by simp [utf8In], by simp [utf8In]⟩
  | succ room ih =>
    cases s with
    | nil => exact ⟨.stop _, by simp [utf8In], rfl⟩
    | cons b bs =>
      have hd : utf8Decoder (b :: bs) = if invalidLead b then .bad else
        match readCont (contIn b) (b - octet1 (contIn b)) bs with
        | none => .bad
        | some none => .incomplete
        | some (some (w, rest)) => .char [w] rest := rfl
      rw [utf8In]
      by_cases hl : invalidLead b
      · rw [if_pos hl] at *
        exact ⟨.stop _, by simp, hd, by simp⟩
      · rw [if_neg hl] at *
        cases hr : readCont (contIn b) (b - octet1 (contIn b)) bs with
        | none =>
          rw [hr] at hd
          exact ⟨.stop _, by simp, hd, by simp⟩
        | some x =>
          cases x with
          | none =>
            rw [hr] at hd
            exact ⟨.stop _, by simp, by simp, .inl hd⟩
          | some p =>
            obtain ⟨w, rest⟩ := p
            rw [hr] at hd
            obtain ⟨h1, h2, h3⟩ := ih rest
            simp only
            refine ⟨.char _ [w] _ _ _ hd h1, by simp; omega, ?_⟩
            generalize utf8In room rest = res at *
            obtain ⟨st, rest', out⟩ := res
            cases st with
            | ok => exact h3
            | error => exact h3
            | partial_ =>
              refine ⟨h3.1, ?_⟩
              rcases h3.2 with h | h | ⟨o, r, h, hl⟩
              · exact .inl h
              · exact .inr (.inl (by simp at *; omega))
              · exact .inr (.inr ⟨o, r, h, by simp at *; omega⟩)

/-! ### C57: the UTF-8 round trip -/

theorem readCont_octets (n acc w : Nat) (rest : List Nat) :
    readCont n acc (contOctets w n ++ rest) = some (some (acc * 64 ^ n + w % 64 ^ n, rest)) := by
  induction n generalizing acc with
  | zero => simp [readCont, contOctets, Nat.mod_one]
  | succ n ih =>
    rw [contOctets, List.cons_append, readCont]
    have hb : (decide (0x80 + w / 64 ^ n % 64 < 0x80) || decide (0xbf < 0x80 + w / 64 ^ n % 64)) = false := by
      have := Nat.mod_lt (w / 64 ^ n) (show 0 < 64 by decide)
      simp
      omega
    rw [hb]
    simp only [Bool.false_eq_true, if_false]
    rw [ih, Nat.mod_pow_succ, Nat.pow_succ]
    simp only [Option.some.injEq, Prod.mk.injEq, and_true, Nat.add_sub_cancel_left]
    rw [Nat.add_mul, Nat.mul_assoc, Nat.mul_comm 64, Nat.mul_comm (64 ^ n) (w / 64 ^ n % 64)]
    omega

theorem lead_octet (w : Nat) (hw : w < 2 ^ 31) :
    invalidLead (octet1 (contOut w) + w / 64 ^ contOut w) = false ∧
    contIn (octet1 (contOut w) + w / 64 ^ contOut w) = contOut w := by
  unfold contOut
  repeat' split
  all_goals
    simp only [octet1, Nat.reducePow, Nat.pow_zero, Nat.div_one, Nat.pow_one] at *
    constructor
    · simp only [invalidLead, Bool.or_eq_false_iff, Bool.and_eq_false_iff, decide_eq_false_iff_not]
      omega
    · unfold contIn
      repeat' split
      all_goals omega

theorem utf8Decoder_encodeChar (w : Nat) (hw : w < 2 ^ 31) (rest : List Nat) :
    utf8Decoder (encodeChar w ++ rest) = .char [w] rest := by
  obtain ⟨h1, h2⟩ := lead_octet w hw
  rw [encodeChar, List.cons_append, utf8Decoder, h1, h2, readCont_octets]
  simp only [Bool.false_eq_true, if_false, Nat.add_sub_cancel_left]
  rw [Nat.mul_comm, Nat.div_add_mod]

theorem Run_encoder (w : List Nat) : Run utf8Encoder w (w.flatMap encodeChar) [] := by
  induction w with
  | nil => exact .stop _
  | cons c w ih => exact .char _ _ _ _ _ rfl ih

theorem Run_decoder (w : List Nat) (hw : ∀ c ∈ w, c < 2 ^ 31) : Run utf8Decoder (w.flatMap encodeChar) w [] := by
  induction w with
  | nil => exact .stop _
  | cons c w ih =>
    exact .char _ [c] _ _ _ (utf8Decoder_encodeChar c (hw c (by simp)) _) (ih fun x hx => hw x (by simp [hx]))

/-- **C56, the library's conversions.** The conversions to and from UTF-8 write no more than the space they are given, which is the buffer of
`detail::convert`; -/
theorem C56_buffer (s : List Nat) (room : Nat) : (utf8Out s room).2.2.length ≤ room ∧ (utf8In room s).2.2.length ≤ room :=
  ⟨(utf8Out_implements s room).2.1, (utf8In_implements s room).2.1⟩

/-- they convert character by character, and fail only on octets that are no UTF-8. -/
theorem C56_utf8 (w bs : List Nat) :
    toUtf8 w = .ok (w.flatMap encodeChar) ∧ (∀ ws, fromUtf8 bs = .ok ws ↔ Run utf8Decoder bs ws []) ∧
    (∀ f, fromUtf8 bs = .error f ↔ f = .conversion ∧
      ∃ out rest, Run utf8Decoder bs out rest ∧ rest ≠ [] ∧ (utf8Decoder rest = .bad ∨ utf8Decoder rest = .incomplete)) :=
  ⟨(C56_chunks utf8Encoder_fits utf8Out_implements _ _).2 (Run_encoder w), fun _ => C56_chunks utf8Decoder_fits utf8In_implements bs _,
    fun f => C56_failure utf8Decoder_fits utf8In_implements bs f⟩

/-- A two-octet character that does not fit at the end of the buffer waits for the next round. -/
example : utf8Out [0x61, 0xe9] 2 = (.partial_, [0xe9], [0x61]) ∧ utf8In 1 [0x61, 0xc3, 0xa9] = (.partial_, [0xc3, 0xa9], [0x61]) := by decide

/-- **C57.** Every wide string (of characters below 2³¹) is encoded, and decoded to itself. -/
theorem C57_round_trip (w : WStr) (hw : ∀ c ∈ w, c < 2 ^ 31) :
    ∃ bs, toUtf8 w = .ok bs ∧ fromUtf8 bs = .ok w ∧ ∀ b ∈ bs, b < 256 := by
  refine ⟨_, (C56_chunks utf8Encoder_fits utf8Out_implements _ _).2 (Run_encoder w),
    (C56_chunks utf8Decoder_fits utf8In_implements _ _).2 (Run_decoder w hw), ?_⟩
  intro b hb
  obtain ⟨c, hc, hbc⟩ := List.mem_flatMap.1 hb
  have hcont : ∀ n, ∀ x ∈ contOctets c n, x < 256 := by
    intro n
    induction n with
    | zero => simp [contOctets]
    | succ n ih =>
      intro x hx
      rw [contOctets, List.mem_cons] at hx
      rcases hx with rfl | hx
      · have := Nat.mod_lt (c / 64 ^ n) (show 0 < 64 by decide); omega
      · exact ih x hx
  rw [encodeChar, List.mem_cons] at hbc
  rcases hbc with rfl | h
  · have := hw c hc
    unfold contOut
    repeat' split
    all_goals
      simp only [octet1, Nat.reducePow, Nat.pow_zero, Nat.div_one, Nat.pow_one] at *
      omega
  · exact hcont _ _ h

/-- The encoding of a Unicode scalar value is the standard one (Lean's own). -/
theorem C57_standard (s : List Char) :
    toUtf8 (s.map Char.toNat) = .ok ((s.flatMap String.utf8EncodeChar).map UInt8.toNat) := by
  refine (C56_chunks utf8Encoder_fits utf8Out_implements _ _).2 ?_
  have : (s.flatMap String.utf8EncodeChar).map UInt8.toNat = (s.map Char.toNat).flatMap encodeChar := by
    rw [List.map_flatMap, List.flatMap_map]
    congr 1
    funext c
    have hv : c.toNat < 0x110000 := by
      have := c.valid
      rcases this with h | h
      · have : c.val.toNat < 0xd800 := h
        show c.val.toNat < _
        omega
      · exact h.2
    unfold String.utf8EncodeChar encodeChar contOut
    simp only [show c.val.toNat = c.toNat from rfl]
    repeat' split
    all_goals first
      | omega
      | (simp only [octet1, contOctets, List.map_cons, List.map_nil, UInt8.toNat_ofNat', Nat.reducePow, Nat.pow_zero, Nat.div_one,
          Nat.pow_one, List.cons.injEq, and_true]
         omega)
  rw [this]
  exact Run_encoder _

example : toUtf8 [0x48, 0xe9, 0x20ac, 0x1f600] = .ok [0x48, 0xc3, 0xa9, 0xe2, 0x82, 0xac, 0xf0, 0x9f, 0x98, 0x80] ∧
    fromUtf8 [0x48, 0xc3, 0xa9, 0xe2, 0x82, 0xac, 0xf0, 0x9f, 0x98, 0x80] = .ok [0x48, 0xe9, 0x20ac, 0x1f600] ∧
    fromUtf8 [0x48, 0xc3] = .error .conversion := ⟨rfl, rfl, rfl⟩

/-- A character straddling the buffer boundary. -/
example : toUtf8 (List.replicate 31 0x61 ++ [0x20ac, 0x62]) = .ok (List.replicate 31 0x61 ++ [0xe2, 0x82, 0xac, 0x62]) := by rfl

end PO
