import Verif.Model.Stream
import Verif.Lemmas.Str
/-
What a stream gives line by line, and what the iterators make of it.
-/
namespace PO
variable {α : Type} [DecidableEq α]

/-- The lines that can be got from the characters to come. -/
def availAux (sep : α) (broken : Bool) : List α → List α → List (List α)
  | [], acc => if broken = true ∨ acc = [] then [] else [acc]
  | c :: cs, acc => if c = sep then acc :: availAux sep broken cs [] else availAux sep broken cs (acc ++ [c])

def IStream.avail (s : IStream α) (sep : α) : List (List α) :=
  if s.good then availAux sep s.broken s.rest [] else []

theorem availAux_extract (sep : α) (b : Bool) (cs acc : List α) :
    availAux sep b cs acc =
      if (IStream.extract sep cs acc).2.2 then (IStream.extract sep cs acc).1 :: availAux sep b (IStream.extract sep cs acc).2.1 []
      else if b = true ∨ (IStream.extract sep cs acc).1 = [] then [] else [(IStream.extract sep cs acc).1] := by
  induction cs generalizing acc with
  | nil => rfl
  | cons c cs ih =>
    rw [availAux, IStream.extract]
    by_cases hc : c = sep
    · rw [if_pos hc, if_pos hc]; rfl
    · rw [if_neg hc, if_neg hc]; exact ih _

theorem extract_false (sep : α) (cs acc : List α) (h : (IStream.extract sep cs acc).2.2 = false) :
    (IStream.extract sep cs acc).1 = acc ++ cs ∧ (IStream.extract sep cs acc).2.1 = [] := by
  induction cs generalizing acc with
  | nil => simp [IStream.extract]
  | cons c cs ih =>
    rw [IStream.extract] at h ⊢
    by_cases hc : c = sep
    · rw [if_pos hc] at h; cases h
    · rw [if_neg hc] at h ⊢
      have := ih _ h
      simp [this.1, this.2]

theorem getline_sep {s : IStream α} {sep : α} (hg : s.good = true) (h : (IStream.extract sep s.rest []).2.2 = true) :
    s.getline sep = ((IStream.extract sep s.rest []).1, { s with rest := (IStream.extract sep s.rest []).2.1 }) := by
  unfold IStream.getline
  rw [if_pos hg]
  generalize IStream.extract sep s.rest [] = r at h
  obtain ⟨a, b, c⟩ := r
  dsimp only at h
  subst h
  rfl

theorem getline_end {s : IStream α} {sep : α} (hg : s.good = true) (h : (IStream.extract sep s.rest []).2.2 = false) :
    s.getline sep = (s.rest, { s with rest := [], eof := !s.broken, bad := s.broken, fail := s.rest.isEmpty }) := by
  have := extract_false sep s.rest [] h
  unfold IStream.getline
  rw [if_pos hg]
  generalize IStream.extract sep s.rest [] = r at h this
  obtain ⟨a, b, c⟩ := r
  dsimp only at h this
  subst h
  rw [this.1, this.2]
  rfl

theorem avail_step {s : IStream α} {sep : α} (h : (s.getline sep).2.ok = true) :
    s.avail sep = (s.getline sep).1 :: (s.getline sep).2.avail sep := by
  by_cases hg : s.good = true
  · unfold IStream.avail
    rw [if_pos hg, availAux_extract]
    cases hx : (IStream.extract sep s.rest []).2.2 with
    | true =>
      rw [getline_sep hg hx]
      have : ({ s with rest := (IStream.extract sep s.rest []).2.1 } : IStream α).good = true := hg
      rw [if_pos this]
      rfl
    | false =>
      have hr := extract_false sep s.rest [] hx
      rw [getline_end hg hx] at h ⊢
      rw [hr.1]
      simp only [IStream.ok, Bool.and_eq_true, Bool.not_eq_true', List.isEmpty_eq_false_iff] at h
      simp [h.1, h.2, IStream.good]
  · unfold IStream.getline at h
    rw [if_neg hg] at h
    simp [IStream.ok] at h

theorem avail_end {s : IStream α} {sep : α} (h : (s.getline sep).2.ok = false) : s.avail sep = [] := by
  by_cases hg : s.good = true
  · unfold IStream.avail
    rw [if_pos hg, availAux_extract]
    cases hx : (IStream.extract sep s.rest []).2.2 with
    | true =>
      rw [getline_sep hg hx] at h
      have : ({ s with rest := (IStream.extract sep s.rest []).2.1 } : IStream α).good = true := hg
      simp [IStream.ok, IStream.good] at h this
      rw [h this.1.2] at this
      cases this.2
    | false =>
      have hr := extract_false sep s.rest [] hx
      rw [getline_end hg hx] at h
      rw [hr.1]
      simp only [IStream.ok, Bool.and_eq_false_iff, Bool.not_eq_false', List.isEmpty_iff] at h
      rcases h with h | h <;> simp [h]
  · unfold IStream.avail; rw [if_neg hg]

/-- As long as lines are got, the stream is good or at the end without an error; and it ends with an error if it is broken. -/
def IStream.Fresh (s : IStream α) : Prop := s.fail = false ∧ s.bad = false ∧ (s.eof = true → s.broken = false)

theorem fresh_step {s : IStream α} {sep : α} (hs : s.Fresh) :
    (s.getline sep).2.broken = s.broken ∧ ((s.getline sep).2.ok = true → (s.getline sep).2.Fresh) ∧
      ((s.getline sep).2.ok = false → (s.getline sep).2.bad = s.broken) := by
  by_cases hg : s.good = true
  · cases hx : (IStream.extract sep s.rest []).2.2 with
    | true =>
      rw [getline_sep hg hx]
      refine ⟨rfl, fun _ => hs, ?_⟩
      intro h
      simp [IStream.ok, hs.1, hs.2.1] at h
    | false =>
      rw [getline_end hg hx]
      refine ⟨rfl, ?_, fun _ => rfl⟩
      intro h
      simp only [IStream.ok, Bool.and_eq_true, Bool.not_eq_true'] at h
      exact ⟨h.1, h.2, fun _ => h.2⟩
  · unfold IStream.getline
    rw [if_neg hg]
    refine ⟨rfl, ?_, ?_⟩
    · intro h; simp [IStream.ok] at h
    · intro _
      have he : s.eof = true := by
        obtain ⟨h1, h2, h3⟩ := hs
        cases he : s.eof with
        | true => rfl
        | false => simp [IStream.good, h1, h2, he] at hg
      rw [hs.2.2 he]; exact hs.2.1

/-! ### The iterator -/

/-- All lines at once. -/
def ConfigIter.batch (it : ConfigIter) (conv : List α → Option Str) : Str → List (List α) → Except Fail (List Opt)
  | _, [] => .ok []
  | pre, l :: ls =>
    match conv l with
    | none => .error .conversion
    | some l =>
      match it.line pre (stripLine l) with
      | .error f => .error f
      | .ok .skip => it.batch conv pre ls
      | .ok (.section_ p) => it.batch conv p ls
      | .ok (.option o) =>
        match it.batch conv pre ls with
        | .error f => .error f
        | .ok os => .ok (o :: os)

theorem batch_lines (it : ConfigIter) (pre : Str) (ls : List Str) : it.batch some pre ls = it.lines pre ls := by
  induction ls generalizing pre with
  | nil => rfl
  | cons l ls ih =>
    rw [ConfigIter.batch, ConfigIter.lines]
    dsimp only
    cases it.line pre (stripLine l) with
    | error f => rfl
    | ok r =>
      cases r <;> simp only [ih]
      cases it.lines pre ls <;> rfl

theorem batch_wlines (it : ConfigIter) (env : Env) (pre : Str) (ls : List WStr) : it.batch env.toUtf8 pre ls = it.wlines env pre ls := by
  induction ls generalizing pre with
  | nil => rfl
  | cons l ls ih =>
    rw [ConfigIter.batch, ConfigIter.wlines]
    cases env.toUtf8 l with
    | none => rfl
    | some l =>
      dsimp only
      cases it.line pre (stripLine l) with
      | error f => rfl
      | ok r =>
        cases r <;> simp only [ih]
        cases it.wlines env pre ls <;> rfl

/-- The fields of the value that `get` does not write. -/
def CfIter.Clean (i : CfIter) : Prop := i.value.positionKey = -1 ∧ i.value.caseInsensitive = false

theorem line_clean {it : ConfigIter} {pre s : Str} {o : Opt} (h : it.line pre s = .ok (.option o)) :
    o.positionKey = -1 ∧ o.caseInsensitive = false := by
  unfold ConfigIter.line at h
  split at h
  · cases h
  · split at h
    · dsimp only at h
      split at h <;> cases h
    · split at h
      · dsimp only at h
        split at h
        · cases h
        · cases h; exact ⟨rfl, rfl⟩
      · cases h

theorem get_batch (conv : List α → Option Str) (sep : α) (n : Nat) (i : CfIter) (s : IStream α) (hn : s.rest.length ≤ n)
    (hc : i.Clean) (he : i.atEof = false) :
    i.it.batch conv i.pre (s.avail sep) =
      (match i.get conv sep s with
      | .error f => .error f
      | .ok (i', s') => if i'.atEof then .ok [] else (i.it.batch conv i'.pre (s'.avail sep)).map (i'.value :: ·)) ∧
    (∀ i' s', i.get conv sep s = .ok (i', s') → i'.it = i.it ∧ i'.Clean ∧ (s.Fresh → s'.broken = s.broken ∧
      (if i'.atEof then s'.ok = false ∧ s'.bad = s.broken else s'.Fresh))) := by
  induction n generalizing i s with
  | zero =>
    rw [CfIter.get]
    by_cases hok : (s.getline sep).2.ok = true
    · have := IStream.getline_less s sep hok; omega
    · rw [dif_neg hok, avail_end (by simpa using hok)]
      refine ⟨rfl, ?_⟩
      intro i' s' h
      cases h
      refine ⟨rfl, hc, fun hf => ⟨(fresh_step hf).1, ?_⟩⟩
      rw [if_pos rfl]
      exact ⟨by simpa using hok, (fresh_step hf).2.2 (by simpa using hok)⟩
  | succ n ih =>
    rw [CfIter.get]
    by_cases hok : (s.getline sep).2.ok = true
    · have hl := IStream.getline_less s sep hok
      rw [dif_pos hok, avail_step hok, ConfigIter.batch]
      cases hcv : conv (s.getline sep).1 with
      | none => exact ⟨rfl, fun _ _ h => by cases h⟩
      | some l =>
        dsimp only
        cases hline : i.it.line i.pre (stripLine l) with
        | error f => exact ⟨rfl, fun _ _ h => by cases h⟩
        | ok r =>
          cases r with
          | skip =>
            dsimp only
            have := ih i (s.getline sep).2 (by omega) hc he
            refine ⟨this.1, ?_⟩
            intro i' s' h
            obtain ⟨h1, h2, h3⟩ := this.2 i' s' h
            refine ⟨h1, h2, fun hf => ?_⟩
            have hb := fresh_step (sep := sep) hf
            rw [← hb.1]
            exact h3 (hb.2.1 hok)
          | section_ p =>
            dsimp only
            have := ih { i with pre := p } (s.getline sep).2 (by omega) hc he
            refine ⟨this.1, ?_⟩
            intro i' s' h
            obtain ⟨h1, h2, h3⟩ := this.2 i' s' h
            refine ⟨h1, h2, fun hf => ?_⟩
            have hb := fresh_step (sep := sep) hf
            rw [← hb.1]
            exact h3 (hb.2.1 hok)
          | option o =>
            have ho := line_clean hline
            have hv : ({ i.value with stringKey := o.stringKey, value := o.value, unregistered := o.unregistered,
                                      originalTokens := o.originalTokens } : Opt) = o := by
              obtain ⟨a, b, c, d, e, f⟩ := o
              obtain ⟨h1, h2⟩ := hc
              simp only at ho
              simp only [h1, h2, ho.1, ho.2]
            dsimp only
            rw [hv]
            refine ⟨?_, ?_⟩
            · rw [if_neg (by rw [he]; simp)]
              cases i.it.batch conv i.pre ((s.getline sep).2.avail sep) <;> rfl
            · intro i' s' h
              cases h
              refine ⟨rfl, ho, fun hf => ?_⟩
              have hb := fresh_step (sep := sep) hf
              refine ⟨hb.1, ?_⟩
              rw [if_neg (by rw [he]; simp)]
              exact hb.2.1 hok
    · rw [dif_neg hok, avail_end (by simpa using hok)]
      refine ⟨rfl, ?_⟩
      intro i' s' h
      cases h
      refine ⟨rfl, hc, fun hf => ⟨(fresh_step hf).1, ?_⟩⟩
      rw [if_pos rfl]
      exact ⟨by simpa using hok, (fresh_step hf).2.2 (by simpa using hok)⟩

theorem copy_eof (conv : List α → Option Str) (sep : α) (i : CfIter) (s : IStream α) (result : List Opt) (he : i.atEof = true) :
    i.copy conv sep s result = .ok (result, s) := by
  rw [CfIter.copy, dif_pos he]

theorem copy_batch (conv : List α → Option Str) (sep : α) (n : Nat) (i : CfIter) (s : IStream α) (hn : s.rest.length ≤ n)
    (hc : i.Clean) (he : i.atEof = false) (result : List Opt) :
    (i.copy conv sep s result).map (·.1) = (i.it.batch conv i.pre (s.avail sep)).map (fun os => result ++ i.value :: os) ∧
    (∀ os s', i.copy conv sep s result = .ok (os, s') → s.Fresh → s'.bad = s.broken) := by
  induction n generalizing i s result with
  | zero =>
    have hg := get_batch conv sep 0 i s hn hc he
    rw [CfIter.copy, dif_neg (by rw [he]; simp)]
    split
    · rename_i f hf
      rw [hg.1, hf]
      exact ⟨rfl, fun _ _ h => by cases h⟩
    · rename_i i' s' hf
      have h2 := hg.2 i' s' hf
      have he' : i'.atEof = true := by
        cases h : i'.atEof with
        | true => rfl
        | false => have := CfIter.get_less conv sep _ i s (Nat.le_refl _) hf h; omega
      rw [hg.1, hf, copy_eof _ _ _ _ _ he']
      dsimp only
      rw [if_pos he']
      refine ⟨rfl, ?_⟩
      intro os s'' h hfr
      cases h
      have := (h2.2.2 hfr).2
      rw [if_pos he'] at this
      exact this.2
  | succ n ih =>
    have hg := get_batch conv sep _ i s (Nat.le_refl _) hc he
    rw [CfIter.copy, dif_neg (by rw [he]; simp)]
    split
    · rename_i f hf
      rw [hg.1, hf]
      exact ⟨rfl, fun _ _ h => by cases h⟩
    · rename_i i' s' hf
      have h2 := hg.2 i' s' hf
      cases he' : i'.atEof with
      | true =>
        rw [hg.1, hf, copy_eof _ _ _ _ _ he']
        dsimp only
        rw [if_pos he']
        refine ⟨rfl, ?_⟩
        intro os s'' h hfr
        cases h
        have := (h2.2.2 hfr).2
        rw [if_pos he'] at this
        exact this.2
      | false =>
        have hl := CfIter.get_less conv sep _ i s (Nat.le_refl _) hf he'
        have := ih i' s' (by omega) h2.2.1 he' (result ++ [i.value])
        rw [this.1, hg.1, hf, h2.1]
        dsimp only
        rw [if_neg (by rw [he']; simp)]
        refine ⟨?_, ?_⟩
        · cases i.it.batch conv i'.pre (s'.avail sep) <;> simp [Except.map]
        · intro os s'' h hfr
          have h3 := (h2.2.2 hfr)
          rw [if_neg (by rw [he']; simp)] at h3
          rw [← h3.1]
          exact this.2 os s'' h h3.2

end PO
