import Verif.Model.Split
import Verif.Tests.Util
/-
C50, C51: splitting a command line string into arguments.
-/
namespace PO

/-! ### C50: `split_unix` -/

/-- Put the escape character before every separator, quote and escape character. -/
def escapeArg (sep quote esc : Str) (e : Char) (a : Str) : Str :=
  a.flatMap fun c => if c ∈ sep ∨ c ∈ quote ∨ c ∈ esc then [e, c] else [c]

/-- Put the escape character before every quote and escape character, and quotes around. -/
def quoteArg (quote esc : Str) (q e : Char) (a : Str) : Str :=
  q :: (a.flatMap fun c => if c ∈ quote ∨ c ∈ esc then [e, c] else [c]) ++ [q]

/-- `parts` joined by the separator `s`. -/
def joinBy (s : Char) : List Str → Str
  | [] => []
  | [p] => p
  | p :: ps => p ++ s :: joinBy s ps

section
variable {sep quote esc : Str} {e : Char}

theorem tokenize_plain (c : Char) (hc : c ∉ esc) (cs : Str) (inQ : Bool) (cur : Str) :
    tokenizeFields sep quote esc (c :: cs) inQ cur =
      if c ∈ sep ∧ inQ = false then
        match tokenizeFields sep quote esc cs false [] with
        | .error f => .error f
        | .ok fs => .ok (cur :: fs)
      else if c ∈ sep then tokenizeFields sep quote esc cs inQ (cur ++ [c])
      else if c ∈ quote then tokenizeFields sep quote esc cs (!inQ) cur
      else tokenizeFields sep quote esc cs inQ (cur ++ [c]) := by
  cases cs <;> cases inQ <;> by_cases h1 : c ∈ sep <;> by_cases h2 : c ∈ quote <;>
    simp [tokenizeFields, h1, h2, hc] <;> rfl

theorem tokenize_escaped (he : e ∈ esc) (hn : 'n' ∉ sep ∧ 'n' ∉ quote ∧ 'n' ∉ esc) (a rest : Str) (inQ : Bool) (cur : Str) :
    tokenizeFields sep quote esc (escapeArg sep quote esc e a ++ rest) inQ cur =
      tokenizeFields sep quote esc rest inQ (cur ++ a) := by
  induction a generalizing cur with
  | nil => simp [escapeArg]
  | cons c a ih =>
    by_cases hc : c ∈ sep ∨ c ∈ quote ∨ c ∈ esc
    · have h1 : escapeArg sep quote esc e (c :: a) ++ rest = e :: c :: (escapeArg sep quote esc e a ++ rest) := by
        simp [escapeArg, hc]
      have hcn : c ≠ 'n' := by
        rintro rfl
        rcases hc with h | h | h
        · exact hn.1 h
        · exact hn.2.1 h
        · exact hn.2.2 h
      have hel : (quote.elem c || sep.elem c || esc.elem c) = true := by
        simp only [List.elem_eq_mem, Bool.or_eq_true, decide_eq_true_eq]
        rcases hc with h | h | h
        · exact .inl (.inr h)
        · exact .inl (.inl h)
        · exact .inr h
      rw [h1, tokenizeFields]
      simp only [List.elem_eq_mem, he, decide_true, if_true, if_neg hcn] at hel ⊢
      rw [if_pos hel, ih]
      simp
    · have h1 : escapeArg sep quote esc e (c :: a) ++ rest = c :: (escapeArg sep quote esc e a ++ rest) := by
        simp [escapeArg, hc]
      rw [not_or, not_or] at hc
      rw [h1, tokenize_plain c hc.2.2]
      simp only [hc.1, hc.2.1, false_and, if_false]
      rw [ih]
      simp

theorem tokenize_quoted_body (he : e ∈ esc) (hn : 'n' ∉ quote ∧ 'n' ∉ esc) (a rest : Str) (cur : Str) :
    tokenizeFields sep quote esc ((a.flatMap fun c => if c ∈ quote ∨ c ∈ esc then [e, c] else [c]) ++ rest) true cur =
      tokenizeFields sep quote esc rest true (cur ++ a) := by
  induction a generalizing cur with
  | nil => simp
  | cons c a ih =>
    by_cases hc : c ∈ quote ∨ c ∈ esc
    · have hcn : c ≠ 'n' := by
        rintro rfl
        rcases hc with h | h
        · exact hn.1 h
        · exact hn.2 h
      have hel : (quote.elem c || sep.elem c || esc.elem c) = true := by
        simp only [List.elem_eq_mem, Bool.or_eq_true, decide_eq_true_eq]
        rcases hc with h | h
        · exact .inl (.inl h)
        · exact .inr h
      rw [List.flatMap_cons, if_pos hc]
      simp only [List.cons_append, List.nil_append]
      rw [tokenizeFields]
      simp only [List.elem_eq_mem, he, decide_true, if_true, if_neg hcn] at hel ⊢
      rw [if_pos hel, ih]
      simp
    · rw [List.flatMap_cons, if_neg hc]
      rw [not_or] at hc
      simp only [List.cons_append, List.nil_append]
      rw [tokenize_plain c hc.2]
      simp only [hc.1, if_false, Bool.true_eq_false, and_false, ite_self]
      rw [ih]
      simp

theorem tokenize_quoted {q : Char} (he : e ∈ esc) (hn : 'n' ∉ quote ∧ 'n' ∉ esc) (hq : q ∈ quote ∧ q ∉ sep ∧ q ∉ esc)
    (a rest : Str) (cur : Str) :
    tokenizeFields sep quote esc (quoteArg quote esc q e a ++ rest) false cur =
      tokenizeFields sep quote esc rest false (cur ++ a) := by
  have hq1 : ∀ cs b cur, tokenizeFields sep quote esc (q :: cs) b cur = tokenizeFields sep quote esc cs (!b) cur := by
    intro cs b cur
    rw [tokenize_plain q hq.2.2]
    simp [hq.1, hq.2.1]
  unfold quoteArg
  rw [List.cons_append, List.cons_append, hq1, List.append_assoc, Bool.not_false, tokenize_quoted_body he hn]
  simp only [List.cons_append, List.nil_append]
  rw [hq1]; rfl

end

/-- The two ways of writing an argument. -/
inductive UnixForm (sep quote esc : Str) (e : Char) (a : Str) : Str → Prop
  | escaped : UnixForm sep quote esc e a (escapeArg sep quote esc e a)
  | quoted (q : Char) : q ∈ quote → q ∉ sep → q ∉ esc → UnixForm sep quote esc e a (quoteArg quote esc q e a)

/-- **C50.** Write each of a list of non-empty arguments either with all special characters escaped
or in quotes with quotes and escapes escaped, join the results with a separator, and split: the list
comes back. (`n` is not special: `\n` stands for a newline.) -/
theorem C50_unix_round_trip (sep quote esc : Str) (e s : Char) (he : e ∈ esc) (hs : s ∈ sep) (hse : s ∉ esc)
    (hn : 'n' ∉ sep ∧ 'n' ∉ quote ∧ 'n' ∉ esc)
    (args : List (Str × Str)) (hne : ∀ a ∈ args, a.1 ≠ []) (hform : ∀ a ∈ args, UnixForm sep quote esc e a.1 a.2) :
    splitUnix (joinBy s (args.map (·.2))) sep quote esc = .ok (args.map (·.1)) := by
  have hone : ∀ a ∈ args, ∀ rest cur, tokenizeFields sep quote esc (a.2 ++ rest) false cur =
      tokenizeFields sep quote esc rest false (cur ++ a.1) := by
    intro a ha rest cur
    have hf := hform a ha
    generalize a.1 = a1, a.2 = a2 at hf ⊢
    cases hf with
    | escaped => exact tokenize_escaped he hn _ _ _ _
    | quoted q h1 h2 h3 => exact tokenize_quoted he hn.2 ⟨h1, h2, h3⟩ _ _ _
  have hsep : ∀ cs cur, tokenizeFields sep quote esc (s :: cs) false cur =
      match tokenizeFields sep quote esc cs false [] with
      | .error f => .error f
      | .ok fs => .ok (cur :: fs) := by
    intro cs cur
    rw [tokenize_plain s hse, if_pos ⟨hs, rfl⟩]
  have key : args ≠ [] → tokenizeFields sep quote esc (joinBy s (args.map (·.2))) false [] = .ok (args.map (·.1)) := by
    clear hne hform
    induction args with
    | nil => intro h; exact absurd rfl h
    | cons a args ih =>
      intro _
      cases args with
      | nil =>
        have := hone a (by simp) [] []
        rw [List.append_nil] at this
        simp only [List.map_cons, List.map_nil, joinBy, this, tokenizeFields, List.nil_append]
      | cons b args =>
        have h1 := hone a (by simp) (s :: joinBy s ((b :: args).map (·.2))) []
        have h2 := ih (fun x hx => hone x (by simp [hx])) (by simp)
        rw [List.map_cons, show joinBy s (a.2 :: (b :: args).map (·.2)) = a.2 ++ s :: joinBy s ((b :: args).map (·.2)) from rfl,
          h1, hsep, h2]
        simp
  unfold splitUnix
  cases args with
  | nil => simp [joinBy, tokenizeFields]
  | cons a args =>
    rw [key (by simp)]
    simp only
    congr 1
    rw [List.filter_eq_self]
    intro x hx
    obtain ⟨y, hy, rfl⟩ := List.mem_map.1 hx
    simpa using hne y hy

example : splitUnix (joinBy ' ' [escapeArg [' ', '\t'] ['\'', '"'] ['\\'] '\\' (Test.L "a b\"c"), quoteArg ['\'', '"'] ['\\'] '"' '\\' (Test.L "\\x ")]) =
    .ok [Test.L "a b\"c", Test.L "\\x "] := by rfl

/-! ### C51: `split_winmain` -/

/-- The argument's characters with backslashes before a quote doubled and one more added; `n`
backslashes are pending; at the end they are multiplied by `k`. -/
def winEscape (k : Nat) : Nat → Str → Str
  | n, [] => List.replicate (k * n) '\\'
  | n, c :: cs =>
    if c = '\\' then winEscape k (n + 1) cs
    else if c = '"' then List.replicate (2 * n + 1) '\\' ++ '"' :: winEscape k 0 cs
    else List.replicate n '\\' ++ c :: winEscape k 0 cs

/-- In quotes: backslashes at the end are doubled. -/
def winQuote (a : Str) : Str := '"' :: winEscape 2 0 a ++ ['"']

/-- How an argument may be written: in quotes, or, if not empty and without white space, as it is
except for the escaping of quotes. -/
inductive WinForm (a : Str) : Str → Prop
  | quoted : WinForm a (winQuote a)
  | bare : a ≠ [] → (∀ c ∈ a, isSpace c = false) → WinForm a (winEscape 1 0 a)

/-- Lines made of such arguments separated (and possibly surrounded) by white space. -/
inductive WinLine : Str → List Str → Prop
  | empty : WinLine [] []
  | blank (c s args) : isSpace c = true → WinLine s args → WinLine (c :: s) args
  | last (a r) : WinForm a r → WinLine r [a]
  | arg (a r c s args) : WinForm a r → isSpace c = true → WinLine s args → WinLine (r ++ c :: s) (a :: args)

theorem winLoop_backslashes (k : Nat) (r : Str) (st : WinState) :
    winLoop (List.replicate k '\\' ++ r) false st = winLoop r false { st with backslashes := st.backslashes + k } := by
  induction k generalizing st with
  | zero => rfl
  | succ k ih =>
    rw [List.replicate_succ, List.cons_append, winLoop]
    simp only [Bool.false_and, Bool.false_eq_true, if_false, show ¬ ('\\' = '"') by decide, if_true]
    rw [ih]
    simp only [Nat.add_assoc, Nat.add_comm 1 k]

theorem winLoop_skip (c : Char) (cs : Str) (st : WinState) (h : isSpace c = false) :
    winLoop (c :: cs) true st = winLoop (c :: cs) false st := by
  rw [winLoop, winLoop]
  simp [h]

/-- An escaped text up to its pending backslashes at the end. -/
theorem winLoop_escape (k : Nat) (inside : Bool) (a rest : Str) (ha : inside = true ∨ ∀ c ∈ a, isSpace c = false) (n : Nat) (cur : Str) (eq : Bool) :
    ∃ cur' m, winLoop (winEscape k n a ++ rest) false { current := cur, insideQuoted := inside, emptyQuote := eq, backslashes := 0 } =
        winLoop (List.replicate (k * m) '\\' ++ rest) false { current := cur', insideQuoted := inside, emptyQuote := eq, backslashes := 0 } ∧
      cur' ++ List.replicate m '\\' = cur ++ List.replicate n '\\' ++ a := by
  induction a generalizing n cur with
  | nil => exact ⟨cur, n, rfl, by simp⟩
  | cons c a ih =>
    have ih' := ih (ha.imp_right fun h x hx => h x (by simp [hx]))
    rw [winEscape]
    by_cases h1 : c = '\\'
    · subst h1
      rw [if_pos rfl]
      obtain ⟨cur', m, e1, e2⟩ := ih' (n + 1) cur
      refine ⟨cur', m, e1, ?_⟩
      rw [e2, List.replicate_succ']
      simp
    · rw [if_neg h1]
      by_cases h2 : c = '"'
      · subst h2
        rw [if_pos rfl]
        obtain ⟨cur', m, e1, e2⟩ := ih' 0 (cur ++ List.replicate n '\\' ++ ['"'])
        refine ⟨cur', m, ?_, by rw [e2]; simp⟩
        rw [← e1, List.append_assoc, winLoop_backslashes, List.cons_append, winLoop]
        have o1 : ¬ (0 + (2 * n + 1)) % 2 = 0 := by omega
        have o2 : (0 + (2 * n + 1)) / 2 = n := by omega
        simp only [Bool.false_and, Bool.false_eq_true, if_false, if_true, o1, o2]
      · rw [if_neg h2]
        obtain ⟨cur', m, e1, e2⟩ := ih' 0 (cur ++ List.replicate n '\\' ++ [c])
        refine ⟨cur', m, ?_, by rw [e2]; simp⟩
        rw [← e1, List.append_assoc, winLoop_backslashes, List.cons_append, winLoop]
        have hsp : (isSpace c && !inside) = false := by
          rcases ha with h | h
          · simp [h]
          · simp [h c (by simp)]
        simp only [Bool.false_and, Bool.false_eq_true, if_false, h1, h2, hsp, Nat.zero_add]
        by_cases hn : n = 0
        · simp [hn]
        · simp [hn]

/-- One written argument: afterwards the collected text, with the pending backslashes, is the argument. -/
theorem winLoop_form {a r : Str} (h : WinForm a r) (skip : Bool) (rest : Str) :
    ∃ st : WinState, winLoop (r ++ rest) skip {} = winLoop rest false st ∧ st.insideQuoted = false ∧
      st.current ++ List.replicate st.backslashes '\\' = a ∧ (a = [] → st.emptyQuote = true) := by
  cases h with
  | quoted =>
    have h0 : winLoop (winQuote a ++ rest) skip {} =
        winLoop (winEscape 2 0 a ++ '"' :: rest) false { insideQuoted := true } := by
      unfold winQuote
      have : skip = true → isSpace '"' = false := fun _ => by decide
      rw [List.cons_append, List.cons_append, List.append_assoc]
      cases skip
      · rw [winLoop]; simp
      · rw [winLoop_skip _ _ _ (by decide), winLoop]; simp
    obtain ⟨cur', m, e1, e2⟩ := winLoop_escape 2 true a ('"' :: rest) (.inl rfl) 0 [] false
    rw [h0, e1, winLoop_backslashes, winLoop]
    have o1 : (0 + 2 * m) % 2 = 0 := by omega
    have o2 : (0 + 2 * m) / 2 = m := by omega
    simp only [Bool.false_and, Bool.false_eq_true, if_false, if_true, o1, o2]
    simp only [List.replicate_zero, List.append_nil, List.nil_append] at e2
    refine ⟨_, rfl, rfl, by simp [e2], ?_⟩
    rintro rfl
    simp [e2]
  | bare hne hsp =>
    have hr : ∀ rest, winLoop (winEscape 1 0 a ++ rest) skip {} = winLoop (winEscape 1 0 a ++ rest) false {} := by
      intro rest
      cases skip with
      | false => rfl
      | true =>
        have : ∃ c cs, winEscape 1 0 a = c :: cs ∧ isSpace c = false := by
          have gen : ∀ (a : Str) (n : Nat), (a ≠ [] ∨ n ≠ 0) → (∀ c ∈ a, isSpace c = false) →
              ∃ c cs, winEscape 1 n a = c :: cs ∧ isSpace c = false := by
            intro a
            induction a with
            | nil =>
              intro n hn _
              rcases hn with h | h
              · exact absurd rfl h
              · obtain ⟨j, rfl⟩ := Nat.exists_eq_succ_of_ne_zero h
                exact ⟨'\\', _, by rw [winEscape, Nat.one_mul, List.replicate_succ], by decide⟩
            | cons c a ih =>
              intro n _ hs
              rw [winEscape]
              split
              · exact ih (n + 1) (.inr (by omega)) (fun x hx => hs x (by simp [hx]))
              · split
                · exact ⟨'\\', _, by rw [List.replicate_succ, List.cons_append], by decide⟩
                · cases n with
                  | zero => exact ⟨c, _, rfl, hs c (by simp)⟩
                  | succ n => exact ⟨'\\', _, by rw [List.replicate_succ, List.cons_append], by decide⟩
          exact gen a 0 (.inl hne) hsp
        obtain ⟨c, cs, e, hc⟩ := this
        rw [e, List.cons_append, winLoop_skip _ _ _ hc]
    obtain ⟨cur', m, e1, e2⟩ := winLoop_escape 1 false a rest (.inr hsp) 0 [] false
    rw [hr, e1, winLoop_backslashes]
    refine ⟨_, rfl, rfl, ?_, fun h => absurd h hne⟩
    simpa using e2

theorem winLoop_line {s : Str} {args : List Str} (h : WinLine s args) :
    winLoop s true {} = args ∧ winLoop (s.dropWhile isSpace) false {} = args := by
  have hend : ∀ st : WinState, ∀ a, st.insideQuoted = false → st.current ++ List.replicate st.backslashes '\\' = a →
      (a = [] → st.emptyQuote = true) → winLoop [] false st = [a] := by
    intro st a h1 h2 h3
    rw [winLoop]
    have : (if st.backslashes ≠ 0 then st.current ++ List.replicate st.backslashes '\\' else st.current) = a := by
      split
      · exact h2
      · rename_i hb; rw [← h2]; simp at hb; simp [hb]
    simp only [this]
    rw [if_pos]
    by_cases ha : a = []
    · exact .inr (.inr (h3 ha))
    · exact .inl ha
  have hspace : ∀ st : WinState, ∀ a c s, st.insideQuoted = false → st.current ++ List.replicate st.backslashes '\\' = a →
      isSpace c = true → winLoop (c :: s) false st = a :: winLoop s true {} := by
    intro st a c s h1 h2 hc
    rw [winLoop]
    have n1 : c ≠ '"' := by rintro rfl; revert hc; decide
    have n2 : c ≠ '\\' := by rintro rfl; revert hc; decide
    have : (if st.backslashes ≠ 0 then st.current ++ List.replicate st.backslashes '\\' else st.current) = a := by
      split
      · exact h2
      · rename_i hb; rw [← h2]; simp at hb; simp [hb]
    simp only [this, n1, n2, if_false, Bool.false_and, Bool.false_eq_true, hc, h1, Bool.not_false, Bool.and_true, if_true]
  have hnb : ∀ {a r}, WinForm a r → ∀ rest, (r ++ rest).dropWhile isSpace = r ++ rest := by
    intro a r h rest
    have : ∃ c cs, r = c :: cs ∧ isSpace c = false := by
      cases h with
      | quoted => exact ⟨'"', _, rfl, by decide⟩
      | bare hne hsp =>
        have gen : ∀ (a : Str) (n : Nat), (a ≠ [] ∨ n ≠ 0) → (∀ c ∈ a, isSpace c = false) →
            ∃ c cs, winEscape 1 n a = c :: cs ∧ isSpace c = false := by
          intro a
          induction a with
          | nil =>
            intro n hn _
            rcases hn with h | h
            · exact absurd rfl h
            · obtain ⟨j, rfl⟩ := Nat.exists_eq_succ_of_ne_zero h
              exact ⟨'\\', _, by rw [winEscape, Nat.one_mul, List.replicate_succ], by decide⟩
          | cons c a ih =>
            intro n _ hs
            rw [winEscape]
            split
            · exact ih (n + 1) (.inr (by omega)) (fun x hx => hs x (by simp [hx]))
            · split
              · exact ⟨'\\', _, by rw [List.replicate_succ, List.cons_append], by decide⟩
              · cases n with
                | zero => exact ⟨c, _, rfl, hs c (by simp)⟩
                | succ n => exact ⟨'\\', _, by rw [List.replicate_succ, List.cons_append], by decide⟩
        exact gen a 0 (.inl hne) hsp
    obtain ⟨c, cs, rfl, hc⟩ := this
    simp [hc]
  induction h with
  | empty => simp [winLoop]
  | blank c s args hc _ ih =>
    refine ⟨?_, by simpa [hc] using ih.2⟩
    rw [winLoop]
    simp [hc, ih.1]
  | last a r hf =>
    have key : ∀ skip, winLoop r skip {} = [a] := by
      intro skip
      obtain ⟨st, e1, e2, e3, e4⟩ := winLoop_form hf skip []
      rw [List.append_nil] at e1
      rw [e1, hend st a e2 e3 e4]
    have := hnb hf []
    rw [List.append_nil] at this
    exact ⟨key true, by rw [this]; exact key false⟩
  | arg a r c s args hf hc _ ih =>
    have key : ∀ skip, winLoop (r ++ c :: s) skip {} = a :: args := by
      intro skip
      obtain ⟨st, e1, e2, e3, _⟩ := winLoop_form hf skip (c :: s)
      rw [e1, hspace st a c s e2 e3 hc, ih.1]
    exact ⟨key true, by rw [hnb hf]; exact key false⟩

/-- **C51.** Splitting a line in which each argument is written by the documented rules gives the
arguments. -/
theorem C51_winmain_lines {s : Str} {args : List Str} (h : WinLine s args) : splitWinmain s = args := by
  have := (winLoop_line h).2
  unfold splitWinmain
  split
  · rename_i hd
    rw [hd] at this
    simpa [winLoop] using this
  · exact this

/-- **C51, round trip:** quoting every argument and joining with spaces. -/
theorem C51_winmain_round_trip (args : List Str) : splitWinmain (joinBy ' ' (args.map winQuote)) = args := by
  apply C51_winmain_lines
  induction args with
  | nil => exact .empty
  | cons a args ih =>
    cases args with
    | nil => exact .last a _ .quoted
    | cons b args => exact .arg a _ ' ' _ _ .quoted (by decide) ih

example : splitWinmain (joinBy ' ' [winQuote (Test.L "a b\\\"c\\"), winQuote [], Test.L "x\\\\y"]) = [Test.L "a b\\\"c\\", [], Test.L "x\\\\y"] ∧
    WinForm (Test.L "x\\\\y") (Test.L "x\\\\y") :=
  ⟨by decide, .bare (a := Test.L "x\\\\y") (by decide) (by decide)⟩

end PO
