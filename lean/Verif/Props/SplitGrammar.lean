import Verif.Props.Split
import Verif.Spec.Split
/-
C77, C78: exactly how `split_unix` and `split_winmain` split a line.
-/
namespace PO
open Spec

/-! ### C77: `split_unix` -/

section
variable {sep quote esc : Str}

theorem tokenize_piece {q q' : Bool} {s t : Str} (h : UnixPiece sep quote esc q s t q') (rest cur : Str) :
    tokenizeFields sep quote esc (s ++ rest) q cur = tokenizeFields sep quote esc rest q' (cur ++ t) := by
  cases h with
  | newline e he => simp [tokenizeFields, he]
  | escaped e c he hc hn =>
    have hel : (quote.elem c || sep.elem c || esc.elem c) = true := by
      simp only [List.elem_eq_mem, Bool.or_eq_true, decide_eq_true_eq]
      rcases hc with h | h | h
      · exact .inl (.inr h)
      · exact .inl (.inl h)
      · exact .inr h
    simp only [List.cons_append, List.nil_append]
    rw [tokenizeFields]
    simp only [List.elem_eq_mem, he, decide_true, if_true, if_neg hn] at hel ⊢
    rw [if_pos hel]
  | quote c hc hs he => rw [List.singleton_append, tokenize_plain c he]; simp [hs, hc]
  | inside c hs he => rw [List.singleton_append, tokenize_plain c he]; simp [hs]
  | other c hs hq he => rw [List.singleton_append, tokenize_plain c he]; simp [hs, hq]

theorem tokenize_field {q q' : Bool} {s t : Str} (h : UnixField sep quote esc q s t q') (rest cur : Str) :
    tokenizeFields sep quote esc (s ++ rest) q cur = tokenizeFields sep quote esc rest q' (cur ++ t) := by
  induction h generalizing cur with
  | nil => simp
  | cons h hs ih => rw [List.append_assoc, tokenize_piece h, ih, List.append_assoc]

theorem tokenize_line {s : Str} {fs : List Str} (h : UnixLine sep quote esc s fs) : tokenizeFields sep quote esc s false [] = .ok fs := by
  induction h with
  | last h =>
    have := tokenize_field h [] []
    rw [List.append_nil, List.nil_append] at this
    rw [this, tokenizeFields]
  | field h hs he hr ih =>
    rw [tokenize_field h, tokenize_plain _ he, if_pos ⟨hs, rfl⟩, ih, List.nil_append]

theorem tokenize_bad {s : Str} (h : BadEscape sep quote esc s) : tokenizeFields sep quote esc s false [] = .error .escapedList := by
  obtain ⟨pre, e, rest, rfl, ⟨fs, hl⟩, he, hr⟩ := h
  have hbad : ∀ q cur, tokenizeFields sep quote esc (e :: rest) q cur = .error .escapedList := by
    intro q cur
    cases rest with
    | nil => simp [tokenizeFields, he]
    | cons c rest =>
      obtain ⟨h1, h2, h3, h4⟩ := hr c rfl
      simp [tokenizeFields, he, h1, h2, h3, h4]
  induction hl with
  | last h => rw [tokenize_field h, hbad]
  | field h hs he hr ih =>
    rw [List.append_assoc, List.cons_append, tokenize_field h, tokenize_plain _ he, if_pos ⟨hs, rfl⟩, ih]

theorem unixField_append {q q' q'' : Bool} {s t s' t' : Str} (h : UnixField sep quote esc q s t q') (h' : UnixField sep quote esc q' s' t' q'') :
    UnixField sep quote esc q (s ++ s') (t ++ t') q'' := by
  induction h with
  | nil => exact h'
  | cons hp hs ih => rw [List.append_assoc, List.append_assoc]; exact .cons hp (ih h')

/-- A line can be read up to its end, to a separator, or to an escape character that escapes nothing. -/
theorem unix_read (n : Nat) (s : Str) (hn : s.length ≤ n) (q : Bool) : ∃ a t q' rest, s = a ++ rest ∧ UnixField sep quote esc q a t q' ∧
    (rest = [] ∨ (∃ c rest', rest = c :: rest' ∧ c ∈ sep ∧ c ∉ esc ∧ q' = false) ∨
      ∃ e rest', rest = e :: rest' ∧ e ∈ esc ∧ ∀ c, rest'.head? = some c → c ≠ 'n' ∧ c ∉ sep ∧ c ∉ quote ∧ c ∉ esc) := by
  induction n generalizing s q with
  | zero =>
    have : s = [] := List.eq_nil_of_length_eq_zero (by omega)
    exact ⟨[], [], q, [], by rw [this]; rfl, .nil, .inl rfl⟩
  | succ n ih =>
    have go : ∀ p t q' s', s = p ++ s' → p ≠ [] → UnixPiece sep quote esc q p t q' →
        ∃ a t q' rest, s = a ++ rest ∧ UnixField sep quote esc q a t q' ∧
          (rest = [] ∨ (∃ c rest', rest = c :: rest' ∧ c ∈ sep ∧ c ∉ esc ∧ q' = false) ∨
            ∃ e rest', rest = e :: rest' ∧ e ∈ esc ∧ ∀ c, rest'.head? = some c → c ≠ 'n' ∧ c ∉ sep ∧ c ∉ quote ∧ c ∉ esc) := by
      intro p t q' s' e hp h
      have hl : s'.length ≤ n := by
        have := congrArg List.length e
        rw [List.length_append] at this
        have := List.length_pos_iff.2 hp
        omega
      obtain ⟨a, t', q'', rest, rfl, hf, hr⟩ := ih s' hl q'
      exact ⟨p ++ a, t ++ t', q'', rest, by rw [e, List.append_assoc], .cons h hf, hr⟩
    cases s with
    | nil => exact ⟨[], [], q, [], rfl, .nil, .inl rfl⟩
    | cons c s =>
      by_cases he : c ∈ esc
      · cases s with
        | nil => exact ⟨[], [], q, [c], rfl, .nil, .inr (.inr ⟨c, [], rfl, he, nofun⟩)⟩
        | cons d s =>
          by_cases hd : d = 'n'
          · subst hd; exact go [c, 'n'] _ _ s rfl nofun (.newline c he)
          · by_cases hs : d ∈ sep ∨ d ∈ quote ∨ d ∈ esc
            · exact go [c, d] _ _ s rfl nofun (.escaped c d he hs hd)
            · rw [not_or, not_or] at hs
              refine ⟨[], [], q, c :: d :: s, rfl, .nil, .inr (.inr ⟨c, d :: s, rfl, he, ?_⟩)⟩
              intro x hx; cases hx; exact ⟨hd, hs⟩
      · by_cases hs : c ∈ sep
        · cases q with
          | false => exact ⟨[], [], false, c :: s, rfl, .nil, .inr (.inl ⟨c, s, rfl, hs, he, rfl⟩)⟩
          | true => exact go [c] _ _ s rfl nofun (.inside c hs he)
        · by_cases hq : c ∈ quote
          · exact go [c] _ _ s rfl nofun (.quote c hq hs he)
          · exact go [c] _ _ s rfl nofun (.other c hs hq he)

/-- Every line is in the language or has a bad escape. -/
theorem unix_total (n : Nat) (s : Str) (hn : s.length ≤ n) : (∃ fs, UnixLine sep quote esc s fs) ∨ BadEscape sep quote esc s := by
  induction n generalizing s with
  | zero =>
    have : s = [] := List.eq_nil_of_length_eq_zero (by omega)
    subst this
    exact .inl ⟨_, .last .nil⟩
  | succ n ih =>
    obtain ⟨a, t, q', rest, rfl, hf, rfl | ⟨c, rest', rfl, hs, he, rfl⟩ | ⟨e, rest', rfl, he, hr⟩⟩ :=
      unix_read (sep := sep) (quote := quote) (esc := esc) s.length s (Nat.le_refl _) false
    · rw [List.append_nil]; exact .inl ⟨_, .last hf⟩
    · rcases ih rest' (by simp at hn; omega) with ⟨fs, h⟩ | ⟨pre, e, r, rfl, ⟨fs, hl⟩, hee, hr⟩
      · exact .inl ⟨_, .field hf hs he h⟩
      · exact .inr ⟨a ++ c :: pre, e, r, by simp, ⟨_, .field hf hs he hl⟩, hee, hr⟩
    · exact .inr ⟨a, e, rest', rfl, ⟨_, .last hf⟩, he, hr⟩

end

/-- **C77.** `split_unix` gives the fields of the line that are not empty, and fails exactly if an escape character escapes
nothing. -/
theorem C77_unix_grammar (sep quote esc s : Str) (res : List Str) :
    splitUnix s sep quote esc = .ok res ↔ ∃ fs, UnixLine sep quote esc s fs ∧ res = fs.filter (· ≠ []) := by
  unfold splitUnix
  rcases unix_total (sep := sep) (quote := quote) (esc := esc) s.length s (Nat.le_refl _) with ⟨fs, h⟩ | h
  · rw [tokenize_line h]
    constructor
    · intro e; cases e; exact ⟨fs, h, rfl⟩
    · rintro ⟨fs', h', rfl⟩
      have := (tokenize_line h).symm.trans (tokenize_line h')
      cases this; rfl
  · rw [tokenize_bad h]
    constructor
    · nofun
    · rintro ⟨fs', h', rfl⟩
      exact nomatch (tokenize_bad h).symm.trans (tokenize_line h')

theorem C77_unix_refusal (sep quote esc s : Str) (f : Fail) :
    splitUnix s sep quote esc = .error f ↔ f = .escapedList ∧ BadEscape sep quote esc s := by
  unfold splitUnix
  rcases unix_total (sep := sep) (quote := quote) (esc := esc) s.length s (Nat.le_refl _) with ⟨fs, h⟩ | h
  · rw [tokenize_line h]
    constructor
    · nofun
    · rintro ⟨rfl, h'⟩
      exact nomatch (tokenize_bad h').symm.trans (tokenize_line h)
  · rw [tokenize_bad h]
    constructor
    · intro e; cases e; exact ⟨rfl, h⟩
    · rintro ⟨rfl, -⟩; rfl

/-- The line `a' b'\n \" x`: two fields, of which the first is put together from three pieces, and the last has an open quote. -/
example : ∃ fs, UnixLine [' ', '\t'] ['\'', '"'] ['\\'] ['a', '\'', ' ', 'b', '\'', '\\', 'n', ' ', ' ', '"', 'x', ' ', 'y'] fs ∧ fs.filter (· ≠ []) = [['a', ' ', 'b', '\n'], ['x', ' ', 'y']] := by
  obtain ⟨fs, h, e⟩ := (C77_unix_grammar [' ', '\t'] ['\'', '"'] ['\\'] ['a', '\'', ' ', 'b', '\'', '\\', 'n', ' ', ' ', '"', 'x', ' ', 'y'] [['a', ' ', 'b', '\n'], ['x', ' ', 'y']]).1 rfl
  exact ⟨fs, h, e.symm⟩

/-- By hand: `b\ ` is one field. -/
example : UnixLine [' ', '\t'] ['\'', '"'] ['\\'] ['b', '\\', ' '] [['b', ' ']] :=
  .last (q := false) (.cons (s := ['b']) (t := ['b']) (.other 'b' (by decide) (by decide) (by decide))
    (.cons (s := ['\\', ' ']) (t := [' ']) (.escaped '\\' ' ' (by decide) (by decide) (by decide)) .nil))

/-- `\x` is no escape. -/
example : splitUnix ['a', ' ', '\\', 'x'] = .error .escapedList ∧ BadEscape [' ', '\t'] ['\'', '"'] ['\\'] ['a', ' ', '\\', 'x'] :=
  ⟨rfl, ((C77_unix_refusal _ _ _ _ _).1 (rfl : splitUnix ['a', ' ', '\\', 'x'] = .error .escapedList)).2⟩

/-! ### C78: `split_winmain` -/

theorem isSpace_iff (c : Char) : isSpace c = true ↔ c ∈ blanks := by
  simp [isSpace, blanks, or_assoc]

theorem winLoop_piece {q q' : Bool} {s t : Str} (h : WinPiece '\\' '"' blanks q s t q') (rest cur : Str) (eq : Bool) :
    ∃ eq', winLoop (s ++ rest) false { current := cur, insideQuoted := q, emptyQuote := eq, backslashes := 0 } =
        winLoop rest false { current := cur ++ t, insideQuoted := q', emptyQuote := eq', backslashes := 0 } ∧
      (cur ++ t ≠ [] ∨ q' = true ∨ eq' = true) := by
  cases h with
  | quote n =>
    refine ⟨q && (cur ++ List.replicate n '\\').isEmpty, ?_, ?_⟩
    · rw [List.append_assoc, winLoop_backslashes, List.singleton_append, winLoop]
      simp
    · cases q <;> simp
      by_cases hc : cur = [] <;> by_cases hn : n = 0 <;> simp [hc, hn]
  | literal n =>
    refine ⟨eq, ?_, .inl (by simp)⟩
    rw [List.append_assoc, winLoop_backslashes, List.singleton_append, winLoop]
    have h1 : (2 * n + 1) / 2 = n := by omega
    simp [h1]
  | other n c h1 h2 h =>
    refine ⟨eq, ?_, .inl (by simp)⟩
    rw [List.append_assoc, winLoop_backslashes, List.singleton_append, winLoop]
    have h3 : (isSpace c && !q) = false := by
      rcases h with h | h
      · simp [h]
      · rw [← isSpace_iff] at h; simp [h]
    by_cases hn : n = 0 <;> simp [h1, h2, h3, hn]

theorem winLoop_arg {q q' : Bool} {s t : Str} (h : WinArg '\\' '"' blanks q s t q') (rest cur : Str) (eq : Bool) :
    ∃ eq' n u, winLoop (s ++ rest) false { current := cur, insideQuoted := q, emptyQuote := eq, backslashes := 0 } =
        winLoop rest false { current := u, insideQuoted := q', emptyQuote := eq', backslashes := n } ∧
      u ++ List.replicate n '\\' = cur ++ t ∧ (s ≠ [] ∨ cur ≠ [] ∨ q = true ∨ eq = true → u ++ List.replicate n '\\' ≠ [] ∨ q' = true ∨ eq' = true) := by
  induction h generalizing cur eq with
  | nil n =>
    refine ⟨eq, n, cur, by rw [winLoop_backslashes]; simp, rfl, ?_⟩
    rintro (h | h | h | h)
    · left; simp at h ⊢; exact fun _ => h
    · left; simp [h]
    · exact .inr (.inl h)
    · exact .inr (.inr h)
  | cons h hs ih =>
    rename_i s t s' t'
    obtain ⟨eq1, e1, hc1⟩ := winLoop_piece h (s' ++ rest) cur eq
    obtain ⟨eq2, n, u, e2, hu, hc2⟩ := ih (cur ++ t) eq1
    refine ⟨eq2, n, u, by rw [List.append_assoc, e1, e2], by rw [hu, List.append_assoc], fun _ => hc2 (.inr hc1)⟩

/-- At the beginning of an argument, blanks are skipped. -/
theorem winLoop_skip_or (s : Str) (st : WinState) (h : ∀ c, s.head? = some c → isSpace c = false) (b : Bool) : winLoop s b st = winLoop s false st := by
  cases s with
  | nil => rw [winLoop, winLoop]
  | cons c s =>
    cases b with
    | false => rfl
    | true => exact winLoop_skip c s st (h c rfl)

theorem winArg_head' {q0 q : Bool} {s t : Str} (h : WinArg '\\' '"' blanks q0 s t q) (c : Char) (hc : s.head? = some c) : q0 = false → isSpace c = false := by
  intro e
  cases h with
  | nil n =>
    cases n with
    | zero => simp at hc
    | succ n => rw [List.replicate_succ] at hc; simp at hc; rw [← hc]; decide
  | cons h hs =>
    cases h with
    | quote n =>
      cases n with
      | zero => simp at hc; rw [← hc]; decide
      | succ n => rw [show 2 * (n + 1) = 2 * n + 1 + 1 by omega, List.replicate_succ] at hc; simp at hc; rw [← hc]; decide
    | literal n => rw [List.replicate_succ] at hc; simp at hc; rw [← hc]; decide
    | other n d h1 h2 h =>
      cases n with
      | zero =>
        simp at hc; subst hc; subst e
        rcases h with h | h
        · cases h
        · rw [← isSpace_iff] at h; simpa using h
      | succ n => rw [List.replicate_succ] at hc; simp at hc; rw [← hc]; decide

theorem winArg_head {q : Bool} {s t : Str} (h : WinArg '\\' '"' blanks false s t q) (c : Char) (hc : s.head? = some c) : isSpace c = false :=
  winArg_head' h c hc rfl

theorem winLoop_reads {s : Str} {args : List Str} (h : WinReads '\\' '"' blanks s args) : winLoop s true {} = args := by
  induction h with
  | nil => simp [winLoop]
  | blank hc h ih =>
    rw [winLoop, (isSpace_iff _).2 hc]
    simpa using ih
  | @last s t q h hne =>
    rw [winLoop_skip_or s _ (winArg_head h)]
    obtain ⟨eq', n, u, e, hu, hc⟩ := winLoop_arg h [] [] false
    rw [List.append_nil] at e
    rw [show ({} : WinState) = { current := [], insideQuoted := false, emptyQuote := false, backslashes := 0 } from rfl, e, winLoop]
    have hc := hc (.inl hne)
    have hcur : (if n ≠ 0 then u ++ List.replicate n '\\' else u) = u ++ List.replicate n '\\' := by
      split
      · rfl
      · rename_i h; simp at h; simp [h]
    simp only [hcur]
    rw [if_pos hc, hu, List.nil_append]
  | @arg s t c rest args h hne hsp hr ih =>
    rw [winLoop_skip_or _ _ (by
      intro d hd
      cases s with
      | nil => exact absurd rfl hne
      | cons x s => exact winArg_head h d hd)]
    obtain ⟨eq', n, u, e, hu, hc⟩ := winLoop_arg h (c :: rest) [] false
    rw [show ({} : WinState) = { current := [], insideQuoted := false, emptyQuote := false, backslashes := 0 } from rfl, e, winLoop]
    have hcur : (if n ≠ 0 then u ++ List.replicate n '\\' else u) = u ++ List.replicate n '\\' := by
      split
      · rfl
      · rename_i h; simp at h; simp [h]
    have h1 : c ≠ '"' := by rintro rfl; revert hsp; decide
    have h2 : c ≠ '\\' := by rintro rfl; revert hsp; decide
    simp only [Bool.false_and, Bool.false_eq_true, if_false, h1, h2, (isSpace_iff c).2 hsp, Bool.not_false, Bool.and_self, if_true, hcur]
    rw [hu, List.nil_append]
    exact congrArg _ ih

/-- A line can be read up to its end or to white space. -/
theorem win_read {α : Type} [DecidableEq α] (bs qt : α) (blank : List α) (n : Nat) (s : List α) (hn : s.length ≤ n) (q : Bool) : ∃ a t q' rest, s = a ++ rest ∧ WinArg bs qt blank q a t q' ∧
    (rest = [] ∨ ∃ c rest', rest = c :: rest' ∧ c ∈ blank ∧ q' = false) := by
  induction n generalizing s q with
  | zero =>
    have : s = [] := List.eq_nil_of_length_eq_zero (by omega)
    exact ⟨[], [], q, [], by rw [this]; rfl, .nil 0, .inl rfl⟩
  | succ n ih =>
    have hsplit : ∃ k s', s = List.replicate k bs ++ s' ∧ s'.head? ≠ some bs := by
      clear hn ih
      induction s with
      | nil => exact ⟨0, [], rfl, by simp⟩
      | cons c s ih =>
        by_cases hc : c = bs
        · obtain ⟨k, s', rfl, h⟩ := ih
          exact ⟨k + 1, s', by rw [hc]; rfl, h⟩
        · exact ⟨0, c :: s, rfl, by simpa using hc⟩
    obtain ⟨k, s', rfl, hh⟩ := hsplit
    cases s' with
    | nil => exact ⟨List.replicate k bs, _, q, [], rfl, .nil k, .inl rfl⟩
    | cons c s' =>
      have hl : s'.length ≤ n := by simp at hn; omega
      have hc : c ≠ bs := by simpa using hh
      have go : ∀ p t q', List.replicate k bs ++ c :: s' = p ++ s' → WinPiece bs qt blank q p t q' →
          ∃ a t q' rest, List.replicate k bs ++ c :: s' = a ++ rest ∧ WinArg bs qt blank q a t q' ∧
            (rest = [] ∨ ∃ c rest', rest = c :: rest' ∧ c ∈ blank ∧ q' = false) := by
        intro p t q' e h
        obtain ⟨a, t', q'', rest, rfl, hf, hr⟩ := ih s' hl q'
        exact ⟨p ++ a, t ++ t', q'', rest, by rw [e, List.append_assoc], .cons h hf, hr⟩
      by_cases hq : c = qt
      · subst hq
        rcases Nat.mod_two_eq_zero_or_one k with hk | hk
        · obtain ⟨m, rfl⟩ : ∃ m, k = 2 * m := ⟨k / 2, by omega⟩
          exact go _ _ _ (by simp) (.quote m)
        · obtain ⟨m, rfl⟩ : ∃ m, k = 2 * m + 1 := ⟨k / 2, by omega⟩
          exact go _ _ _ (by simp) (.literal m)
      · by_cases hsp : c ∈ blank ∧ q = false
        · exact ⟨List.replicate k bs, _, q, c :: s', rfl, .nil k, .inr ⟨c, s', rfl, hsp⟩⟩
        · refine go (List.replicate k bs ++ [c]) _ _ (by simp) (.other k c hq hc ?_)
          cases q
          · exact .inr fun h => hsp ⟨h, rfl⟩
          · exact .inl rfl

theorem win_total {α : Type} [DecidableEq α] (bs qt : α) (blank : List α) (n : Nat) (s : List α) (hn : s.length ≤ n) : ∃ args, WinReads bs qt blank s args := by
  induction n generalizing s with
  | zero =>
    have : s = [] := List.eq_nil_of_length_eq_zero (by omega)
    subst this
    exact ⟨_, .nil⟩
  | succ n ih =>
    obtain ⟨a, t, q', rest, rfl, hf, hr⟩ := win_read bs qt blank s.length s (Nat.le_refl _) false
    by_cases ha : a = []
    · subst ha
      rcases hr with rfl | ⟨c, rest', rfl, hc, -⟩
      · exact ⟨_, .nil⟩
      · obtain ⟨args, h⟩ := ih rest' (by simp at hn; omega)
        exact ⟨_, .blank hc h⟩
    · rcases hr with rfl | ⟨c, rest', rfl, hc, rfl⟩
      · rw [List.append_nil]; exact ⟨_, .last hf ha⟩
      · obtain ⟨args, h⟩ := ih rest' (by simp at hn; omega)
        exact ⟨_, .arg hf ha hc h⟩

theorem splitWinmain_reads {s : Str} {args : List Str} (h : WinReads '\\' '"' blanks s args) : splitWinmain s = args := by
  rw [← winLoop_reads h]
  clear h
  unfold splitWinmain
  induction s with
  | nil => simp [winLoop]
  | cons c s ih =>
    by_cases hc : isSpace c = true
    · rw [List.dropWhile_cons_of_pos hc, ih]
      conv => rhs; rw [winLoop]
      simp [hc]
    · rw [List.dropWhile_cons_of_neg hc]
      simp only
      rw [winLoop_skip c s _ (by simpa using hc)]

/-- **C78.** `split_winmain` splits every line by the documented rules. -/
theorem C78_winmain_grammar (s : Str) (args : List Str) : splitWinmain s = args ↔ WinReads '\\' '"' blanks s args := by
  constructor
  · rintro rfl
    obtain ⟨args, h⟩ := win_total '\\' '"' blanks s.length s (Nat.le_refl _)
    rwa [splitWinmain_reads h]
  · exact splitWinmain_reads

/-- Quotes, empty quotes, an escaped quote, backslashes before and not before a quote, and quotes that are not closed. -/
example : WinReads '\\' '"' blanks [' ', '"', 'a', ' ', 'b', '"', ' ', '"', '"', ' ', 'c', '\\', '"', 'd', ' ', '\\', '\\', '"', ' ', '\\', '\\', 'x', ' '] [['a', ' ', 'b'], [], ['c', '"', 'd'], ['\\', ' ', '\\', '\\', 'x', ' ']] :=
  (C78_winmain_grammar _ _).1 rfl

end PO
