import Verif.Lemmas.Stream
import Verif.Spec.Stream
import Verif.Lemmas.RawText
import Verif.Props.ConfigGrammar
/-
C92: reading from a stream line by line, and what happens if reading fails. C93: copies of the iterator.
-/
namespace PO
open Spec

/-! ### C92: the stream -/

theorem availAux_getlines (text acc : Str) : availAux '\n' false text acc = getlinesAux '\n' text acc := by
  induction text generalizing acc with
  | nil => rw [availAux, getlinesAux]; by_cases h : acc = [] <;> simp [h]
  | cons c cs ih => rw [availAux, getlinesAux, ih, ih]

theorem availAux_wgetlines (text acc : WStr) : availAux 10 false text acc = wgetlinesAux 10 text acc := by
  induction text generalizing acc with
  | nil => rw [availAux, wgetlinesAux]; by_cases h : acc = [] <;> simp [h]
  | cons c cs ih => rw [availAux, wgetlinesAux, ih, ih]

theorem availAux_broken (text tail acc : Str) (ht : '\n' ∉ tail) (h : text = [] ∧ acc = [] ∨ text.getLast? = some '\n') :
    availAux '\n' true (text ++ tail) acc = getlinesAux '\n' text acc := by
  induction text generalizing acc with
  | nil =>
    obtain ⟨-, rfl⟩ : ([] : Str) = [] ∧ acc = [] := by simpa using h
    rw [List.nil_append, getlinesAux, if_pos rfl]
    have : ∀ (t a : Str), '\n' ∉ t → availAux '\n' true t a = [] := by
      intro t
      induction t with
      | nil => intro a _; rw [availAux, if_pos (.inl rfl)]
      | cons c cs ih =>
        intro a h
        rw [availAux, if_neg (fun hc => h (by simp [hc]))]
        exact ih _ (fun hm => h (by simp [hm]))
    exact this tail [] ht
  | cons c cs ih =>
    have h' : cs = [] ∧ c = '\n' ∨ cs.getLast? = some '\n' := by
      rcases h with ⟨h, -⟩ | h
      · cases h
      · cases cs with
        | nil => left; simpa using h
        | cons d ds => right; simpa using h
    rw [List.cons_append, availAux, getlinesAux]
    by_cases hc : c = '\n'
    · rw [if_pos hc, if_pos hc, ih []]
      rcases h' with h | h
      · exact .inl ⟨h.1, rfl⟩
      · exact .inr h
    · rw [if_neg hc, if_neg hc, ih _]
      rcases h' with h | h
      · exact absurd h.2 hc
      · exact .inr h

section
variable {α : Type} [DecidableEq α]

theorem readConfig_eq (conv : List α → Option Str) (sep : α) (s : IStream α) (desc : List OptionDesc) (au : Bool) :
    ((readConfig conv sep s desc au).map (·.1) = match allowedNames desc [] with
      | .error f => .error f
      | .ok allowed =>
        match ConfigIter.make allowed au with
        | .error f => .error f
        | .ok it =>
          match it.batch conv [] (s.avail sep) with
          | .error f => .error f
          | .ok os => .ok { desc, options := os }) ∧
    (∀ p s', readConfig conv sep s desc au = .ok (p, s') → s.Fresh → s'.bad = s.broken) := by
  unfold readConfig openConfig
  cases allowedNames desc [] with
  | error f => exact ⟨rfl, fun _ _ h => by cases h⟩
  | ok allowed =>
    dsimp only
    cases ConfigIter.make allowed au with
    | error f => exact ⟨rfl, fun _ _ h => by cases h⟩
    | ok it =>
      dsimp only
      have hg := get_batch conv sep _ { it } s (Nat.le_refl _) ⟨rfl, rfl⟩ rfl
      rw [show it.batch conv [] (s.avail sep) = _ from hg.1]
      cases h1 : CfIter.get conv sep { it } s with
      | error f => exact ⟨rfl, fun _ _ h => by cases h⟩
      | ok r =>
        obtain ⟨i', s'⟩ := r
        have h2 := hg.2 i' s' h1
        dsimp only
        cases he : i'.atEof with
        | true =>
          rw [copy_eof _ _ _ _ _ he]
          refine ⟨rfl, ?_⟩
          intro p s'' h hf
          cases h
          have := (h2.2.2 hf).2
          rw [if_pos he] at this
          exact this.2
        | false =>
          have hc := copy_batch conv sep _ i' s' (Nat.le_refl _) h2.2.1 he []
          rw [h2.1] at hc
          dsimp only at hc
          refine ⟨?_, ?_⟩
          · have h3 := hc.1
            cases h4 : i'.copy conv sep s' [] with
            | error f =>
              rw [h4] at h3
              cases h5 : it.batch conv i'.pre (s'.avail sep) with
              | error g => rw [h5] at h3; cases h3; rfl
              | ok os => rw [h5] at h3; cases h3
            | ok r =>
              rw [h4] at h3
              cases h5 : it.batch conv i'.pre (s'.avail sep) with
              | error g => rw [h5] at h3; cases h3
              | ok os =>
                rw [h5] at h3
                obtain ⟨os', s''⟩ := r
                simp only [Except.map, Except.ok.injEq, List.nil_append] at h3
                simp [Except.map, h3]
          · intro p s'' h hf
            have h3 := h2.2.2 hf
            rw [if_neg (by rw [he]; simp)] at h3
            cases h4 : i'.copy conv sep s' [] with
            | error f => rw [h4] at h; cases h
            | ok r =>
              obtain ⟨os, s3⟩ := r
              rw [h4] at h
              cases h
              rw [← h3.1]
              exact hc.2 os s'' h4 h3.2

end

/-- **C92, a stream that can be read to its end.** Line by line with `std::getline`, and option by option with the iterator whose
value is overwritten in place, the contents are read as `parse_config_file` reads the text; the stream is not bad afterwards. -/
theorem C92_stream (text : Str) (desc : List OptionDesc) (au : Bool) :
    (readConfigFile { rest := text } desc au).map (·.1) = parseConfigFile text desc au ∧
    ∀ p s', readConfigFile { rest := text } desc au = .ok (p, s') → s'.bad = false := by
  have h := readConfig_eq some '\n' { rest := text } desc au
  refine ⟨?_, fun p s' hp => h.2 p s' hp ⟨rfl, rfl, fun h => by cases h⟩⟩
  rw [show (readConfigFile { rest := text } desc au).map (·.1) = _ from h.1]
  unfold parseConfigFile
  simp only [batch_lines]
  rw [show IStream.avail ({ rest := text } : IStream Char) '\n' = getlines '\n' text from availAux_getlines text []]
  cases allowedNames desc [] with
  | error f => rfl
  | ok allowed =>
    dsimp only
    cases ConfigIter.make allowed au with
    | error f => rfl
    | ok it => dsimp only; cases it.lines [] (getlines '\n' text) <;> rfl

/-- The same for a wide stream. -/
theorem C92_wide_stream (env : Env) (text : WStr) (desc : List OptionDesc) (au : Bool) :
    wparseConfigFile env text desc au =
      match readConfig env.toUtf8 10 { rest := text } desc au with
      | .error f => .error f
      | .ok (p, _) => p.toWide env := by
  have h := (readConfig_eq env.toUtf8 10 { rest := text } desc au).1
  simp only [batch_wlines] at h
  rw [show IStream.avail ({ rest := text } : IStream Nat) 10 = wgetlinesAux 10 text [] from availAux_wgetlines text []] at h
  have h' : wparseConfigFile env text desc au =
      match (readConfig env.toUtf8 10 { rest := text } desc au).map (·.1) with
      | .error f => .error f
      | .ok p => p.toWide env := by
    rw [h]
    unfold wparseConfigFile
    cases allowedNames desc [] with
    | error f => rfl
    | ok allowed =>
      dsimp only
      cases ConfigIter.make allowed au with
      | error f => rfl
      | ok it => dsimp only; cases it.wlines env [] (wgetlinesAux 10 text []) <;> rfl
  rw [h']
  cases readConfig env.toUtf8 10 { rest := text } desc au <;> rfl

/-- **C92, a stream on which reading fails.** The complete lines before the failure are read, the incomplete one is not; and
if they are accepted the stream is bad afterwards. -/
theorem C92_broken_stream (text tail : Str) (ht : '\n' ∉ tail) (h : text = [] ∨ text.getLast? = some '\n') (desc : List OptionDesc)
    (au : Bool) :
    (readConfigFile { rest := text ++ tail, broken := true } desc au).map (·.1) = parseConfigFile text desc au ∧
    ∀ p s', readConfigFile { rest := text ++ tail, broken := true } desc au = .ok (p, s') → s'.bad = true := by
  have hr := readConfig_eq some '\n' { rest := text ++ tail, broken := true } desc au
  refine ⟨?_, fun p s' hp => hr.2 p s' hp ⟨rfl, rfl, fun h => by cases h⟩⟩
  rw [show (readConfigFile { rest := text ++ tail, broken := true } desc au).map (·.1) = _ from hr.1]
  unfold parseConfigFile
  simp only [batch_lines]
  rw [show IStream.avail ({ rest := text ++ tail, broken := true } : IStream Char) '\n' = getlines '\n' text from
    availAux_broken text tail [] ht (h.imp (fun h => ⟨h, rfl⟩) id)]
  cases allowedNames desc [] with
  | error f => rfl
  | ok allowed =>
    dsimp only
    cases ConfigIter.make allowed au with
    | error f => rfl
    | ok it => dsimp only; cases it.lines [] (getlines '\n' text) <;> rfl

/-- Every text is of that form. -/
theorem cut_last_line (s : Str) : ∃ text tail, s = text ++ tail ∧ '\n' ∉ tail ∧ (text = [] ∨ text.getLast? = some '\n') := by
  induction s with
  | nil => exact ⟨[], [], rfl, by simp, .inl rfl⟩
  | cons c cs ih =>
    obtain ⟨text, tail, rfl, h1, h2⟩ := ih
    by_cases hc : text = []
    · subst hc
      by_cases hn : c = '\n'
      · exact ⟨[c], tail, rfl, h1, .inr (by simp [hn])⟩
      · exact ⟨[], c :: tail, rfl, by simp [h1, Ne.symm hn], .inl rfl⟩
    · refine ⟨c :: text, tail, rfl, h1, .inr ?_⟩
      rw [List.getLast?_cons]
      rw [h2.resolve_left hc]
      rfl

/-- **C92, a file.** `parse_config_file` with a file name succeeds iff the file can be opened and read to its end and its contents
are accepted; and returns what they say. -/
theorem C92_file_partial (filename : Str) (file : Option (IStream Char)) (hf : ∀ s, file = some s → s.good = true) (desc : List OptionDesc)
    (au : Bool) (p : Parsed) :
    readConfigFileNamed filename file desc au = .ok p ↔
      ∃ text, file = some { rest := text } ∧ parseConfigFile text desc au = .ok p := by
  have hstr : ∀ (s : IStream Char), s.good = true → s = { rest := s.rest, broken := s.broken } := by
    intro s hs
    obtain ⟨a, b, c, d, e⟩ := s
    simp [IStream.good] at hs
    simp [hs.1.1, hs.1.2, hs.2]
  constructor
  · intro h
    unfold readConfigFileNamed at h
    split at h
    · cases h
    · rename_i s
      have hs := hstr s (hf s rfl)
      split at h
      · split at h
        · cases h
        · rename_i p' s' hr
          split at h
          · cases h
          · rename_i hb
            cases h
            cases hbr : s.broken with
            | true =>
              obtain ⟨text, tail, h1, h2, h3⟩ := cut_last_line s.rest
              rw [hs, hbr, h1] at hr
              exact absurd ((C92_broken_stream text tail h2 h3 desc au).2 p s' hr) hb
            | false =>
              rw [hs, hbr] at hr ⊢
              refine ⟨s.rest, rfl, ?_⟩
              rw [← (C92_stream s.rest desc au).1, hr]
              rfl
      · cases h
  · rintro ⟨text, rfl, hp⟩
    unfold readConfigFileNamed
    dsimp only
    rw [if_pos (show ({ rest := text } : IStream Char).ok = true from rfl)]
    have h := C92_stream text desc au
    rw [hp] at h
    cases hr : readConfigFile { rest := text } desc au with
    | error f => rw [hr] at h; cases h.1
    | ok r =>
      obtain ⟨p', s'⟩ := r
      have h1 := h.1
      rw [hr] at h1
      cases h1
      dsimp only
      rw [if_neg (show ¬ s'.bad = true by rw [h.2 _ s' hr]; simp)]

/-- If reading the file fails, that is reported, unless the lines before are refused already. -/
theorem C92_file_broken (filename text tail : Str) (ht : '\n' ∉ tail) (h : text = [] ∨ text.getLast? = some '\n') (desc : List OptionDesc)
    (au : Bool) :
    readConfigFileNamed filename (some { rest := text ++ tail, broken := true }) desc au = .error
      (match parseConfigFile text desc au with | .error f => f | .ok _ => .readingFile filename) := by
  unfold readConfigFileNamed
  dsimp only
  rw [if_pos (show ({ rest := text ++ tail, broken := true } : IStream Char).ok = true from rfl)]
  have hb := C92_broken_stream text tail ht h desc au
  rw [← hb.1]
  cases hr : readConfigFile { rest := text ++ tail, broken := true } desc au with
  | error f => rfl
  | ok r =>
    obtain ⟨p, s'⟩ := r
    dsimp only [Except.map]
    rw [if_pos (hb.2 p s' hr)]

/-- **C92, negation.** The overload for a stream reports nothing: the file `a=1`, `b=2` of which only the first eight characters can be
read is taken for a file with `a=1`. -/
theorem C92_negation : ∃ (s : IStream Char) (desc : List OptionDesc) (p : Parsed) (s' : IStream Char),
    s.good = true ∧ s.broken = true ∧ s.rest = str% "a=1\nb=2" ∧ readConfigFile s desc = .ok (p, s') ∧
      p.options.map (·.stringKey) = [str% "a"] := by
  have h := C92_broken_stream (str% "a=1\n") (str% "b=2") (by decide) (.inr rfl) [Test.od "a" (Test.sem Test.vstr), Test.od "b" (Test.sem Test.vstr)] false
  cases hr : readConfigFile { rest := str% "a=1\n" ++ str% "b=2", broken := true }
    [Test.od "a" (Test.sem Test.vstr), Test.od "b" (Test.sem Test.vstr)] false with
  | error f => rw [hr] at h; cases h.1
  | ok r =>
    obtain ⟨p, s'⟩ := r
    refine ⟨_, _, p, s', rfl, rfl, rfl, hr, ?_⟩
    rw [hr] at h
    have h1 := h.1
    cases h1
    rfl

/-- **C92, the environment.** The loop over the iterator reads the entries one after the other. -/
theorem C92_environment (environ : List Str) (desc : List OptionDesc) (mapper : Str → Str) :
    readEnvironment environ desc mapper = parseEnvironment environ desc mapper := by
  have heof : ∀ (n : Nat) (i : EnvIter) (result : List Opt), i.atEof = true → EnvIter.loop mapper n i result = .ok result := by
    intro n i result h
    cases n <;> rw [EnvIter.loop, if_pos h]
  have hloop : ∀ (es : List Str) (i : EnvIter) (n : Nat) (result : List Opt), i.entries = es → es.length + 1 ≤ n → i.atEof = false →
      EnvIter.loop mapper n i result = (parseEnvironmentLoop mapper es).map (fun os =>
        (if mapper i.value.1 = [] then result else result ++ [{ stringKey := mapper i.value.1, value := [i.value.2] }]) ++ os) := by
    intro es
    induction es with
    | nil =>
      intro i n result hi hn he
      obtain ⟨n, rfl⟩ : ∃ m, n = m + 1 := ⟨n - 1, by omega⟩
      rw [EnvIter.loop, if_neg (by rw [he]; simp)]
      dsimp only
      unfold EnvIter.get
      rw [hi]
      dsimp only
      rw [heof _ _ _ rfl]
      simp [parseEnvironmentLoop, Except.map]
    | cons e es ih =>
      intro i n result hi hn he
      obtain ⟨n, rfl⟩ : ∃ m, n = m + 1 := ⟨n - 1, by omega⟩
      rw [EnvIter.loop, if_neg (by rw [he]; simp)]
      dsimp only
      unfold EnvIter.get
      rw [hi, parseEnvironmentLoop]
      dsimp only
      cases splitEnv e with
      | error f => rfl
      | ok v =>
        dsimp only
        rw [ih { i with entries := es, value := v } n _ rfl (by simp at hn; omega) he]
        cases parseEnvironmentLoop mapper es with
        | error f => rfl
        | ok os =>
          simp only [Except.map]
          split <;> split <;> simp_all
  unfold readEnvironment parseEnvironment
  cases environ with
  | nil => rfl
  | cons e es =>
    rw [EnvIter.get, parseEnvironmentLoop]
    dsimp only
    cases splitEnv e with
    | error f => rfl
    | ok v =>
      dsimp only
      rw [hloop es _ _ _ rfl (by simp) rfl]
      cases parseEnvironmentLoop mapper es with
      | error f => rfl
      | ok os =>
        obtain ⟨a, b⟩ := v
        simp only [Except.map]
        by_cases h : mapper a = [] <;> simp [h]

example : (readConfigFile { rest := str% "a=1\n[s]\nb=2" } [Test.od "a" (Test.sem Test.vstr), Test.od "s.b" (Test.sem Test.vstr)]).map
    (·.1.options.map (·.stringKey)) = .ok [str% "a", str% "s.b"] := by
  have h := (C92_stream (str% "a=1\n[s]\nb=2") [Test.od "a" (Test.sem Test.vstr), Test.od "s.b" (Test.sem Test.vstr)] false).1
  have h' := congrArg (Except.map (fun p : Parsed => p.options.map (·.stringKey))) h
  generalize readConfigFile { rest := str% "a=1\n[s]\nb=2" } [Test.od "a" (Test.sem Test.vstr), Test.od "s.b" (Test.sem Test.vstr)] = r at h' ⊢
  refine Eq.trans ?_ (h'.trans rfl)
  cases r <;> rfl

/-! ### C93: copies of the iterator -/

theorem get_pre (sep : α) [DecidableEq α] (conv : List α → Option Str) (n : Nat) (i : CfIter) (s : IStream α) (hn : s.rest.length ≤ n)
    (hno : ∀ l ∈ s.avail sep, ∀ l' p, conv l = some l' → i.it.line i.pre (stripLine l') ≠ .ok (.section_ p)) (i' : CfIter) (s' : IStream α)
    (h : i.get conv sep s = .ok (i', s')) :
    i'.pre = i.pre ∧ (∀ l ∈ s'.avail sep, l ∈ s.avail sep) ∧ (i'.atEof = false → i.atEof = false) := by
  induction n generalizing i s i' s' with
  | zero =>
    rw [CfIter.get] at h
    by_cases hok : (s.getline sep).2.ok = true
    · have := IStream.getline_less s sep hok; omega
    · rw [dif_neg hok] at h
      cases h
      refine ⟨rfl, ?_, fun h => by cases h⟩
      intro l hl
      have : (s.getline sep).2.avail sep = [] := by
        unfold IStream.avail
        rw [if_neg]
        intro hg
        simp [IStream.good] at hg
        simp [IStream.ok, hg.1.2, hg.2] at hok
      rw [this] at hl
      cases hl
  | succ n ih =>
    rw [CfIter.get] at h
    by_cases hok : (s.getline sep).2.ok = true
    · have hl := IStream.getline_less s sep hok
      rw [avail_step hok] at hno ⊢
      rw [dif_pos hok] at h
      have hno' := fun l hl => hno l (List.mem_cons_of_mem _ hl)
      split at h
      · cases h
      · rename_i l' hcv
        split at h
        · cases h
        · have := ih i (s.getline sep).2 (by omega) hno' i' s' h
          exact ⟨this.1, fun l hl => List.mem_cons_of_mem _ (this.2.1 l hl), this.2.2⟩
        · rename_i p hp
          exact absurd hp (hno _ (List.mem_cons_self ..) l' p hcv)
        · cases h
          exact ⟨rfl, fun l hl => List.mem_cons_of_mem _ hl, id⟩
    · rw [dif_neg hok] at h
      cases h
      refine ⟨rfl, ?_, fun h => by cases h⟩
      intro l hl
      have : (s.getline sep).2.avail sep = [] := by
        unfold IStream.avail
        rw [if_neg]
        intro hg
        simp [IStream.good] at hg
        simp [IStream.ok, hg.1.2, hg.2] at hok
      rw [this] at hl
      cases hl

theorem turns_iff (it : ConfigIter) (pre : Str) (ks : List Nat) (is : Nat → CfIter) (s : IStream Char) (os all : List Opt)
    (his : ∀ k, (is k).it = it ∧ (is k).pre = pre ∧ (is k).Clean ∧ (is k).atEof = false)
    (hno : ∀ l ∈ s.avail '\n', ∀ p, it.line pre (stripLine l) ≠ .ok (.section_ p)) (hall : it.lines pre (s.avail '\n') = .ok all) :
    Turns is s ks os ↔ ks.length ≤ all.length ∧ os = all.take ks.length := by
  induction ks generalizing is s os all with
  | nil =>
    constructor
    · intro h; cases h; simp
    · rintro ⟨-, rfl⟩; exact .done
  | cons k ks ih =>
    obtain ⟨h1, h2, h3, h4⟩ := his k
    have hg := get_batch some '\n' _ (is k) s (Nat.le_refl _) h3 h4
    rw [h1, h2, batch_lines, hall] at hg
    have hp := get_pre '\n' some _ (is k) s (Nat.le_refl _) (by
      intro l hl l' p hc
      cases hc
      rw [h1, h2]
      exact hno l hl p)
    have hstep : ∀ i' s', (is k).get some '\n' s = .ok (i', s') → i'.atEof = false → ∃ all', all = i'.value :: all' ∧
        (∀ os', Turns (fun j => if j = k then i' else is j) s' ks os' ↔ ks.length ≤ all'.length ∧ os' = all'.take ks.length) := by
      intro i' s' hget he
      obtain ⟨p1, p2, p3⟩ := hp i' s' hget
      obtain ⟨g1, g2, -⟩ := hg.2 i' s' hget
      have g := hg.1
      rw [hget] at g
      dsimp only at g
      rw [if_neg (by rw [he]; simp), p1, h2, batch_lines] at g
      cases hl : it.lines pre (s'.avail '\n') with
      | error f => rw [hl] at g; cases g
      | ok all' =>
        rw [hl] at g
        simp only [Except.map, Except.ok.injEq] at g
        refine ⟨all', g, fun os' => ?_⟩
        refine ih _ s' os' all' ?_ (fun l hl' => hno l (p2 l hl')) hl
        intro j
        split
        · exact ⟨g1, p1.trans h2, g2, he⟩
        · exact his j
    constructor
    · intro h
      cases h with
      | turn hget he ht =>
        obtain ⟨all', rfl, hi⟩ := hstep _ _ hget he
        obtain ⟨q1, q2⟩ := (hi _).1 ht
        simp [q1, q2]
    · rintro ⟨hlen, rfl⟩
      cases hget : (is k).get some '\n' s with
      | error f => rw [hget] at hg; cases hg.1
      | ok r =>
        obtain ⟨i', s'⟩ := r
        cases he : i'.atEof with
        | true =>
          have g := hg.1
          rw [hget] at g
          dsimp only at g
          rw [if_pos he] at g
          cases g
          simp at hlen
        | false =>
          obtain ⟨all', rfl, hi⟩ := hstep _ _ hget he
          simp only [List.length_cons, List.take_succ_cons]
          exact .turn hget he ((hi _).2 ⟨by simpa using hlen, rfl⟩)

/-- **C93 (partial).** In a file without section headers the copies of an iterator hand out the options after the one they are at,
each once and in order, whichever of them is advanced; none of them visits all. -/
theorem C93_copies_partial (ls : List Str) (hl : ∀ l ∈ ls, '\n' ∉ l) (hno : ∀ l ∈ ls, ∀ sec, ¬ Says l ('[' :: sec ++ [']']))
    (desc : List OptionDesc) (au : Bool) (p : Parsed) (hp : parseConfigFile (ls.flatMap (· ++ ['\n'])) desc au = .ok p) (i : CfIter)
    (s : IStream Char) (h : openConfig some '\n' { rest := ls.flatMap (· ++ ['\n']) } desc au = .ok (i, s)) (he : i.atEof = false)
    (turns : List Nat) (os : List Opt) :
    Turns (fun _ => i) s turns os ↔ turns.length ≤ (p.options.drop 1).length ∧ os = (p.options.drop 1).take turns.length := by
  unfold parseConfigFile at hp
  unfold openConfig at h
  cases h1 : allowedNames desc [] with
  | error f => rw [h1] at h; cases h
  | ok allowed =>
    rw [h1] at h hp
    dsimp only at h hp
    cases h2 : ConfigIter.make allowed au with
    | error f => rw [h2] at h; cases h
    | ok it =>
      rw [h2] at h hp
      dsimp only at h hp
      rw [show getlines '\n' (ls.flatMap (· ++ ['\n'])) = ls from getlines_unlines' ls hl] at hp
      have hav : IStream.avail ({ rest := ls.flatMap (· ++ ['\n']) } : IStream Char) '\n' = ls :=
        (availAux_getlines _ []).trans (getlines_unlines' ls hl)
      have hsec : ∀ pre, ∀ l ∈ ls, ∀ q, it.line pre (stripLine l) ≠ .ok (.section_ q) := by
        intro pre l hm q hq
        have hn := fun sec => hno l hm sec
        simp only [says_iff] at hn
        generalize stripLine l = t at hq hn
        unfold ConfigIter.line at hq
        split at hq
        · cases hq
        · split at hq
          · rename_i hne hb
            obtain ⟨hb1, hb2⟩ := hb
            cases t with
            | nil => exact hne rfl
            | cons c t =>
              simp only [List.head?_cons, Option.some.injEq] at hb1
              subst hb1
              cases t with
              | nil => simp at hb2
              | cons d t =>
                rw [List.getLast?_cons_cons] at hb2
                obtain ⟨u, hu⟩ := List.getLast?_eq_some_iff.1 hb2
                exact hn u (by rw [hu]; rfl)
          · split at hq
            · dsimp only at hq
              split at hq <;> cases hq
            · cases hq
      have hg := (get_batch some '\n' _ { it } { rest := ls.flatMap (· ++ ['\n']) } (Nat.le_refl _) ⟨rfl, rfl⟩ rfl).1
      have hg2 := (get_batch some '\n' _ { it } _ (Nat.le_refl _) ⟨rfl, rfl⟩ rfl).2 i s h
      rw [h, hav, batch_lines] at hg
      dsimp only at hg
      rw [if_neg (by rw [he]; simp)] at hg
      obtain ⟨p1, p2, -⟩ := get_pre '\n' some _ { it } _ (Nat.le_refl _) (by
        intro l hl' l' q hc
        cases hc
        rw [hav] at hl'
        exact hsec [] l hl' q) i s h
      rw [hav] at p2
      rw [p1, batch_lines] at hg
      dsimp only at hg p1
      cases h3 : it.lines [] (s.avail '\n') with
      | error f => rw [h3] at hg; rw [hg] at hp; cases hp
      | ok all =>
        rw [h3] at hg
        rw [hg] at hp
        simp only [Except.map, Except.ok.injEq] at hp
        rw [← hp]
        exact turns_iff it [] turns _ s os all (fun _ => ⟨hg2.1, p1, hg2.2.1, he⟩) (fun l hm => hsec [] l (p2 l hm)) h3

theorem get_option {conv : List α → Option Str} [DecidableEq α] {sep : α} {i : CfIter} {s : IStream α} {l : Str} {o : Opt}
    (h1 : (s.getline sep).2.ok = true) (h2 : conv (s.getline sep).1 = some l) (h3 : i.it.line i.pre (stripLine l) = .ok (.option o)) :
    i.get conv sep s =
      .ok ({ i with value := { i.value with stringKey := o.stringKey, value := o.value, unregistered := o.unregistered,
                                            originalTokens := o.originalTokens } }, (s.getline sep).2) := by
  rw [CfIter.get, dif_pos h1, h2]
  dsimp only
  rw [h3]

theorem get_section {conv : List α → Option Str} [DecidableEq α] {sep : α} {i : CfIter} {s : IStream α} {l p : Str}
    (h1 : (s.getline sep).2.ok = true) (h2 : conv (s.getline sep).1 = some l) (h3 : i.it.line i.pre (stripLine l) = .ok (.section_ p)) :
    i.get conv sep s = CfIter.get conv sep { i with pre := p } (s.getline sep).2 := by
  rw [CfIter.get, dif_pos h1, h2]
  dsimp only
  rw [h3]

theorem get_end {conv : List α → Option Str} [DecidableEq α] {sep : α} {i : CfIter} {s : IStream α} (h1 : (s.getline sep).2.ok = false) :
    i.get conv sep s = .ok ({ i with atEof := true }, (s.getline sep).2) := by
  rw [CfIter.get, dif_neg (by rw [h1]; simp)]

/-- **C93, negation.** A copy does not visit what the original visits: when the original has been advanced over the second of two
options, its copy is at the end. -/
theorem C93_negation : ∃ (i i' : CfIter) (s s' : IStream Char), openConfig some '\n' { rest := str% "a=1\nb=2" } [] true = .ok (i, s) ∧
    i.get some '\n' s = .ok (i', s') ∧ i'.atEof = false ∧ i'.value.stringKey = str% "b" ∧
      ∃ i'' s'', i.get some '\n' s' = .ok (i'', s'') ∧ i''.atEof = true :=
  ⟨_, _, _, _, get_option rfl rfl rfl, get_option rfl rfl rfl, rfl, rfl, _, _, get_end rfl, rfl⟩

/-- **C93, negation.** A copy that has not seen a section header does not know the section: what it gets has the wrong name. -/
theorem C93_negation_section : ∃ (i i' i'' : CfIter) (s s' s'' : IStream Char),
    openConfig some '\n' { rest := str% "a=1\n[s]\nb=2\nc=3" } [] true = .ok (i, s) ∧
    i.get some '\n' s = .ok (i', s') ∧ i'.value.stringKey = str% "s.b" ∧ i.get some '\n' s' = .ok (i'', s'') ∧ i''.value.stringKey = str% "c" ∧
      (parseConfigFile (str% "a=1\n[s]\nb=2\nc=3") [] true).map (·.options.map (·.stringKey)) = .ok [str% "a", str% "s.b", str% "s.c"] :=
  ⟨_, _, _, _, _, _, get_option rfl rfl rfl, (get_section rfl rfl rfl).trans (get_option rfl rfl rfl), rfl, get_option rfl rfl rfl, rfl, rfl⟩

example : ∃ (i : CfIter) (s : IStream Char) (os : List Opt), openConfig some '\n' { rest := str% "a=1\nb=2\nc=3\n" } [] true = .ok (i, s) ∧
    Turns (fun _ => i) s [1, 0] os ∧ os.map (·.stringKey) = [str% "b", str% "c"] :=
  ⟨_, _, _, get_option rfl rfl rfl, .turn (get_option rfl rfl rfl) rfl (.turn (get_option rfl rfl rfl) rfl .done), rfl⟩

end PO
