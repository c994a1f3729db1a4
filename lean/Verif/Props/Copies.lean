import Verif.Props.Stream
import Verif.Spec.Copies
/-
C93: exactly what the copies of a configuration file iterator visit, with sections.
-/
namespace PO
open Spec

namespace Copies

variable {desc : List OptionDesc} {au : Bool}

theorem get_sound (n : Nat) (i : CfIter) (s : IStream Char) (hn : s.rest.length ≤ n) (hau : i.it.allowUnregistered = au)
    (hall : ∀ name, i.it.allowed name = true ↔ Accepts desc name) (hc : i.Clean) (i' : CfIter) (s' : IStream Char)
    (h : i.get some '\n' s = .ok (i', s')) (he : i'.atEof = false) :
    NextOption desc au i.pre (s.avail '\n') i'.pre i'.value (s'.avail '\n') ∧ i'.it = i.it ∧ i'.Clean := by
  induction n generalizing i s with
  | zero =>
    rw [CfIter.get] at h
    by_cases hok : (s.getline '\n').2.ok = true
    · have := IStream.getline_less s '\n' hok; omega
    · rw [dif_neg hok] at h
      cases h
      cases he
  | succ n ih =>
    rw [CfIter.get] at h
    by_cases hok : (s.getline '\n').2.ok = true
    · have hl := IStream.getline_less s '\n' hok
      rw [avail_step hok]
      rw [dif_pos hok] at h
      dsimp only at h
      generalize (s.getline '\n').1 = line at h ⊢
      have hs : Says line (stripLine line) := (says_iff _ _).2 rfl
      rcases line_kinds (stripLine line) with h0 | ⟨m, hm⟩ | ⟨nm, v, hi⟩ | ⟨h0, hh, hq⟩
      · rw [h0] at h hs
        obtain ⟨g1, g2, g3⟩ := ih i _ (by omega) hau hall hc h
        exact ⟨.blank hs g1, g2, g3⟩
      · rw [hm] at h hs
        by_cases hne : m = []
        · subst hne
          cases h
        · rw [line_bracket _ _ _ hne] at h
          obtain ⟨g1, g2, g3⟩ := ih { i with pre := sectionPrefix m } _ (by omega) hau hall hc h
          exact ⟨.header m hs hne g1, g2, g3⟩
      · rw [line_configItem _ _ hi] at h
        by_cases ha : Accepts desc (i.pre ++ nm)
        · have ha' := (hall _).2 ha
          rw [if_neg (by rw [ha']; simp), ha'] at h
          cases h
          refine ⟨?_, rfl, hc⟩
          have := NextOption.known (au := au) (ls := (s.getline '\n').2.avail '\n') _ nm v hs hi ha
          obtain ⟨c1, c2⟩ := hc
          simpa only [itemOption, c1, c2, Bool.not_true] using this
        · have ha' : i.it.allowed (i.pre ++ nm) = false := Bool.eq_false_iff.2 fun hh => ha ((hall _).1 hh)
          by_cases hu : au = true
          · rw [if_neg (by rw [hau, hu]; simp), ha'] at h
            cases h
            refine ⟨?_, rfl, hc⟩
            have := NextOption.unknown (au := au) (ls := (s.getline '\n').2.avail '\n') _ nm v hs hi ha hu
            obtain ⟨c1, c2⟩ := hc
            simpa only [itemOption, c1, c2, Bool.not_false] using this
          · rw [if_pos ⟨ha', by rw [hau]; simpa using hu⟩] at h
            cases h
      · rw [line_neither _ _ h0 hh hq] at h
        cases h
    · rw [dif_neg hok] at h
      cases h
      cases he

theorem avail_ok {s : IStream Char} {l : Str} {ls : List Str} (h : s.avail '\n' = l :: ls) :
    (s.getline '\n').2.ok = true ∧ (s.getline '\n').1 = l ∧ (s.getline '\n').2.avail '\n' = ls := by
  cases hok : (s.getline '\n').2.ok with
  | false => rw [avail_end hok] at h; cases h
  | true =>
    rw [avail_step hok] at h
    cases h
    exact ⟨rfl, rfl, rfl⟩

theorem get_complete {pre pre' : Str} {ls rest : List Str} {o : Opt} (h : NextOption desc au pre ls pre' o rest) (i : CfIter) (s : IStream Char)
    (hau : i.it.allowUnregistered = au) (hall : ∀ name, i.it.allowed name = true ↔ Accepts desc name) (hc : i.Clean) (he : i.atEof = false)
    (hp : i.pre = pre) (hs : s.avail '\n' = ls) :
    ∃ i' s', i.get some '\n' s = .ok (i', s') ∧ i'.atEof = false ∧ i'.pre = pre' ∧ i'.value = o ∧ s'.avail '\n' = rest := by
  induction h generalizing i s with
  | blank h t ih =>
    obtain ⟨h1, h2, h3⟩ := avail_ok hs
    rw [says_iff] at h
    rw [CfIter.get, dif_pos h1, h2]
    dsimp only
    rw [h]
    exact ih i _ hau hall hc he hp h3
  | header m h hne t ih =>
    obtain ⟨h1, h2, h3⟩ := avail_ok hs
    rw [says_iff] at h
    rw [CfIter.get, dif_pos h1, h2]
    dsimp only
    rw [h, line_bracket _ _ _ hne]
    exact ih { i with pre := sectionPrefix m } _ hau hall hc he rfl h3
  | known str nm v h hi ha =>
    obtain ⟨h1, h2, h3⟩ := avail_ok hs
    subst hp
    rw [says_iff] at h
    have ha' := (hall _).2 ha
    rw [CfIter.get, dif_pos h1, h2]
    dsimp only
    rw [h, line_configItem _ _ hi, if_neg (by rw [ha']; simp), ha']
    refine ⟨_, _, rfl, he, rfl, ?_, h3⟩
    obtain ⟨c1, c2⟩ := hc
    simp only [itemOption, c1, c2, Bool.not_true]
  | unknown str nm v h hi ha hu =>
    obtain ⟨h1, h2, h3⟩ := avail_ok hs
    subst hp
    rw [says_iff] at h
    have ha' : i.it.allowed (i.pre ++ nm) = false := Bool.eq_false_iff.2 fun hh => ha ((hall _).1 hh)
    rw [CfIter.get, dif_pos h1, h2]
    dsimp only
    rw [h, line_configItem _ _ hi, if_neg (by rw [hau, hu]; simp), ha']
    refine ⟨_, _, rfl, he, rfl, ?_, h3⟩
    obtain ⟨c1, c2⟩ := hc
    simp only [itemOption, c1, c2, Bool.not_false]

theorem turns_taken (it : ConfigIter) (hau : it.allowUnregistered = au) (hall : ∀ name, it.allowed name = true ↔ Accepts desc name)
    (ks : List Nat) (is : Nat → CfIter) (s : IStream Char) (os : List Opt) (his : ∀ k, (is k).it = it ∧ (is k).Clean ∧ (is k).atEof = false) :
    Turns is s ks os ↔ TakeTurns desc au (fun k => (is k).pre) (s.avail '\n') ks os := by
  induction ks generalizing is s os with
  | nil =>
    constructor
    · intro h; cases h; exact .done
    · intro h; cases h; exact .done
  | cons k ks ih =>
    obtain ⟨h1, h2, h3⟩ := his k
    have hnext : ∀ i' : CfIter, i'.it = it → i'.Clean → i'.atEof = false →
        ∀ j, ((fun j => if j = k then i' else is j) j).it = it ∧ ((fun j => if j = k then i' else is j) j).Clean ∧
          ((fun j => if j = k then i' else is j) j).atEof = false := by
      intro i' g1 g2 g3 j
      dsimp only
      split
      · exact ⟨g1, g2, g3⟩
      · exact his j
    have hpre : ∀ i' : CfIter, (fun j => ((fun j => if j = k then i' else is j) j).pre) = fun j => if j = k then i'.pre else (is j).pre := by
      intro i'
      funext j
      dsimp only
      split <;> rfl
    constructor
    · intro h
      cases h with
      | turn hg he ht =>
        rename_i s' i' os
        obtain ⟨g1, g2, g3⟩ := get_sound _ (is k) s (Nat.le_refl _) (h1 ▸ hau) (h1 ▸ hall) h2 i' s' hg he
        have := (ih _ s' os (hnext i' (g2.trans h1) g3 he)).1 ht
        rw [hpre i'] at this
        exact .turn g1 this
    · intro h
      cases h with
      | turn hn ht =>
        rename_i pre' o rest os
        obtain ⟨i', s', hg, he, rfl, rfl, rfl⟩ := get_complete hn (is k) s (h1 ▸ hau) (h1 ▸ hall) h2 h3 rfl rfl
        obtain ⟨_, g2, g3⟩ := get_sound _ (is k) s (Nat.le_refl _) (h1 ▸ hau) (h1 ▸ hall) h2 i' s' hg he
        refine .turn hg he ((ih _ s' os (hnext i' (g2.trans h1) g3 he)).2 ?_)
        rw [hpre i']
        exact ht

/-- One reader reads on in the file. -/
theorem next_lines {pre pre' : Str} {ls rest : List Str} {o : Opt} (h : NextOption desc au pre ls pre' o rest) (os : List Opt) :
    FileLines desc au pre ls os ↔ ∃ os', os = o :: os' ∧ FileLines desc au pre' rest os' := by
  induction h generalizing os with
  | blank h t ih =>
    rw [← ih]
    constructor
    · intro hf
      cases hf with
      | blank _ t' => exact t'
      | header s h' => rw [says_iff] at h h'; rw [h] at h'; cases h'
      | known s n v h' hi => rw [says_iff] at h h'; obtain ⟨a, b, e, -⟩ := hi.split; rw [← h', h] at e; simp at e
      | unknown s n v h' hi => rw [says_iff] at h h'; obtain ⟨a, b, e, -⟩ := hi.split; rw [← h', h] at e; simp at e
    · exact .blank h
  | header m h hne t ih =>
    rw [← ih]
    constructor
    · intro hf
      cases hf with
      | blank h' => rw [says_iff] at h h'; rw [h] at h'; cases h'
      | header s h' hs t' =>
        rw [says_iff] at h h'
        have := h.symm.trans h'
        simp at this
        rw [this]
        exact t'
      | known s n v h' hi => rw [says_iff] at h h'; exact absurd (h'.symm.trans h) (hi.notHeader m)
      | unknown s n v h' hi => rw [says_iff] at h h'; exact absurd (h'.symm.trans h) (hi.notHeader m)
    · exact .header m h hne
  | known s n v h hi ha =>
    constructor
    · intro hf
      cases hf with
      | blank h' => rw [says_iff] at h h'; obtain ⟨a, b, e, -⟩ := hi.split; rw [← h, h'] at e; simp at e
      | header m h' => rw [says_iff] at h h'; exact absurd (h.symm.trans h') (hi.notHeader m)
      | known s' n' v' h' hi' ha' t' =>
        obtain ⟨rfl, rfl⟩ := same_item h h' hi hi'
        exact ⟨_, rfl, t'⟩
      | unknown s' n' v' h' hi' ha' =>
        obtain ⟨rfl, rfl⟩ := same_item h h' hi hi'
        exact absurd ha ha'
    · rintro ⟨os', rfl, t⟩
      exact .known s n v h hi ha t
  | unknown s n v h hi ha hu =>
    constructor
    · intro hf
      cases hf with
      | blank h' => rw [says_iff] at h h'; obtain ⟨a, b, e, -⟩ := hi.split; rw [← h, h'] at e; simp at e
      | header m h' => rw [says_iff] at h h'; exact absurd (h.symm.trans h') (hi.notHeader m)
      | known s' n' v' h' hi' ha' t' =>
        obtain ⟨rfl, rfl⟩ := same_item h h' hi hi'
        exact absurd ha' ha
      | unknown s' n' v' h' hi' ha' hu' t' =>
        obtain ⟨rfl, rfl⟩ := same_item h h' hi hi'
        exact ⟨_, rfl, t'⟩
    · rintro ⟨os', rfl, t⟩
      exact .unknown s n v h hi ha hu t
where
  same_item {l s s' n n' v v' : Str} (h : Says l s) (h' : Says l s') (hi : ConfigItem s n v) (hi' : ConfigItem s' n' v') : n = n' ∧ v = v' := by
    rw [says_iff] at h h'
    have e := h.symm.trans h'
    subst e
    obtain ⟨a, b, e1, ha, hn, hv⟩ := hi.split
    obtain ⟨a', b', e2, ha', hn', hv'⟩ := hi'.split
    have e3 := e1.symm.trans e2
    have hab : a = a' ∧ b = b' := by
      have h1 := findChar_append (b := b) ha
      have h2 := findChar_append (b := b') ha'
      rw [e3, h2] at h1
      have hl : a.length = a'.length := by simpa using h1.symm
      have := List.append_inj e3 hl
      exact ⟨this.1, by simpa using this.2⟩
    rw [padded_iff] at hn hn' hv hv'
    rw [← hn, ← hn', ← hv, ← hv', hab.1, hab.2]
    exact ⟨rfl, rfl⟩

theorem opened {text : Str} {i : CfIter} {s : IStream Char} (h : openConfig some '\n' { rest := text } desc au = .ok (i, s)) :
    ∃ it : ConfigIter, it.allowUnregistered = au ∧ (∀ name, it.allowed name = true ↔ Accepts desc name) ∧
      CfIter.get some '\n' { it } { rest := text } = .ok (i, s) := by
  unfold openConfig at h
  rcases noShort_cases desc with hne | hs
  · obtain ⟨S, h1, ⟨ho, it, h2, h3, h4⟩ | ⟨⟨s, y, hr⟩, h2⟩⟩ := make_spec desc au hne
    · simp only [h1, h2] at h
      exact ⟨it, h3, h4, h⟩
    · simp only [h1, h2 s y hr] at h
      cases h
  · rw [allowedNames_error _ _ hs] at h
    cases h

theorem next_value {pre pre' : Str} {ls rest : List Str} {o : Opt} (h : NextOption desc au pre ls pre' o rest) {pre2 : Str} {os : List Opt}
    (hf : FileLines desc true pre2 ls os) : ∃ pre3 o' os', os = o' :: os' ∧ o'.value = o.value ∧ FileLines desc true pre3 rest os' := by
  have key : ∀ {l s n v}, Says l s → ConfigItem s n v → ∀ {ls pre2 os}, FileLines desc true pre2 (l :: ls) os →
      ∃ pre3 o' os', os = o' :: os' ∧ o'.value = [v] ∧ FileLines desc true pre3 ls os' := by
    intro l s n v h hi ls pre2 os hf
    by_cases ha : Accepts desc (pre2 ++ n)
    · obtain ⟨os', rfl, t⟩ := (next_lines (.known s n v h hi ha) os).1 hf
      exact ⟨pre2, _, os', rfl, rfl, t⟩
    · obtain ⟨os', rfl, t⟩ := (next_lines (.unknown s n v h hi ha rfl) os).1 hf
      exact ⟨pre2, _, os', rfl, rfl, t⟩
  induction h generalizing pre2 os with
  | blank h t ih =>
    cases hf with
    | blank _ t' => exact ih t'
    | header s h' => rw [says_iff] at h h'; rw [h] at h'; cases h'
    | known s n v h' hi => rw [says_iff] at h h'; obtain ⟨a, b, e, -⟩ := hi.split; rw [← h', h] at e; simp at e
    | unknown s n v h' hi => rw [says_iff] at h h'; obtain ⟨a, b, e, -⟩ := hi.split; rw [← h', h] at e; simp at e
  | header m h hne t ih =>
    cases hf with
    | blank h' => rw [says_iff] at h h'; rw [h] at h'; cases h'
    | header s h' hs t' => exact ih t'
    | known s n v h' hi => rw [says_iff] at h h'; exact absurd (h'.symm.trans h) (hi.notHeader m)
    | unknown s n v h' hi => rw [says_iff] at h h'; exact absurd (h'.symm.trans h) (hi.notHeader m)
  | known s n v h hi ha => exact key h hi hf
  | unknown s n v h hi ha hu => exact key h hi hf

theorem exists_next {pre : Str} {ls : List Str} {os : List Opt} (hf : FileLines desc au pre ls os) : ∀ {o os'}, os = o :: os' →
    ∃ pre' rest, NextOption desc au pre ls pre' o rest ∧ FileLines desc au pre' rest os' := by
  induction hf with
  | nil => intro _ _ h; cases h
  | blank h t ih => intro o os' e; obtain ⟨p, r, h1, h2⟩ := ih e; exact ⟨p, r, .blank h h1, h2⟩
  | header s h hs t ih => intro o os' e; obtain ⟨p, r, h1, h2⟩ := ih e; exact ⟨p, r, .header s h hs h1, h2⟩
  | known s n v h hi ha t => intro o os' e; cases e; exact ⟨_, _, .known s n v h hi ha, t⟩
  | unknown s n v h hi ha hu t => intro o os' e; cases e; exact ⟨_, _, .unknown s n v h hi ha hu, t⟩

end Copies

/-- **C93, exactly:** copies of an iterator take turns in reading the rest of the file; each of them names what it is handed out by the
section of the last header that it has come across itself, or that the original had come across when it was copied. -/
theorem C93_copies (ls : List Str) (last : Str) (hl : ∀ l ∈ ls, '\n' ∉ l) (hlast : '\n' ∉ last) (desc : List OptionDesc) (au : Bool) (i : CfIter)
    (s : IStream Char) (h : openConfig some '\n' { rest := ls.flatMap (· ++ ['\n']) ++ last } desc au = .ok (i, s)) (he : i.atEof = false) :
    ∃ pre rest, NextOption desc au [] (ls ++ if last = [] then [] else [last]) pre i.value rest ∧
      ∀ turns os, Turns (fun _ => i) s turns os ↔ TakeTurns desc au (fun _ => pre) rest turns os := by
  obtain ⟨it, h1, h2, h3⟩ := Copies.opened h
  obtain ⟨g1, g2, g3⟩ := Copies.get_sound _ { it } _ (Nat.le_refl _) h1 h2 ⟨rfl, rfl⟩ i s h3 he
  have hav : IStream.avail ({ rest := ls.flatMap (· ++ ['\n']) ++ last } : IStream Char) '\n' = ls ++ if last = [] then [] else [last] :=
    (availAux_getlines _ []).trans (getlines_unlines ls hl last hlast)
  rw [hav] at g1
  refine ⟨i.pre, s.avail '\n', g1, fun turns os => ?_⟩
  exact Copies.turns_taken it h1 h2 turns (fun _ => i) s os fun _ => ⟨g2, g3, he⟩

/-- Hence the values of the file are handed out in order, each once, whichever copy is advanced; and if one copy only is advanced, it gets the
options of the file. -/
theorem C93_values (text : Str) (desc : List OptionDesc) (p : Parsed) (hp : parseConfigFile text desc true = .ok p) (i : CfIter)
    (s : IStream Char) (h : openConfig some '\n' { rest := text } desc true = .ok (i, s)) (he : i.atEof = false)
    (turns : List Nat) (os : List Opt) (ht : Turns (fun _ => i) s turns os) :
    p.options.head? = some i.value ∧ os.map (·.value) = ((p.options.drop 1).take turns.length).map (·.value) := by
  obtain ⟨_, _, ls, last, all, rfl, hl, hlast, hf, rfl⟩ := (C64_accepted text desc true p).1 hp
  obtain ⟨pre, rest, hn, hiff⟩ := C93_copies ls last hl hlast desc true i s h he
  have hf' : FileLines desc true [] (ls ++ if last = [] then [] else [last]) all := by
    obtain ⟨it, h1, h2, -⟩ := Copies.opened h
    rw [← lines_ok_iff it h1 h2] at hf ⊢
    rwa [lines_trailing]
  obtain ⟨all', rfl, hr⟩ := (Copies.next_lines hn all).1 hf'
  refine ⟨rfl, ?_⟩
  have htt := (hiff turns os).1 ht
  clear hiff hn hf hf' ht hp
  show os.map (·.value) = (all'.take turns.length).map (·.value)
  generalize (fun _ => pre : Nat → Str) = pres at htt
  induction htt generalizing all' pre with
  | done => simp
  | turn hn t ih =>
    obtain ⟨pre3, o', os', rfl, hv, hr'⟩ := Copies.next_value hn hr
    simp only [List.map_cons, List.length_cons, List.take_succ_cons, hv]
    rw [ih pre3 os' hr']

theorem C93_alone (text : Str) (desc : List OptionDesc) (au : Bool) (p : Parsed) (hp : parseConfigFile text desc au = .ok p) (i : CfIter)
    (s : IStream Char) (h : openConfig some '\n' { rest := text } desc au = .ok (i, s)) (he : i.atEof = false)
    (k n : Nat) (os : List Opt) :
    Turns (fun _ => i) s (List.replicate n k) os ↔ n < p.options.length ∧ os = (p.options.drop 1).take n := by
  obtain ⟨_, _, ls, last, all, rfl, hl, hlast, hf, rfl⟩ := (C64_accepted text desc au p).1 hp
  obtain ⟨pre, rest, hn, hiff⟩ := C93_copies ls last hl hlast desc au i s h he
  have hf' : FileLines desc au [] (ls ++ if last = [] then [] else [last]) all := by
    obtain ⟨it, h1, h2, -⟩ := Copies.opened h
    rw [← lines_ok_iff it h1 h2] at hf ⊢
    rwa [lines_trailing]
  obtain ⟨all', rfl, hr⟩ := (Copies.next_lines hn all).1 hf'
  rw [hiff]
  clear hiff hn hf hf' hp
  show _ ↔ n < (i.value :: all').length ∧ os = all'.take n
  have hpk : (fun _ => pre : Nat → Str) k = pre := rfl
  generalize (fun _ => pre : Nat → Str) = pres at hpk
  induction n generalizing all' pre rest pres os with
  | zero =>
    constructor
    · intro h; cases h; simp
    · rintro ⟨-, rfl⟩; exact .done
  | succ n ih =>
    rw [List.replicate_succ]
    constructor
    · intro h
      cases h with
      | turn hn t =>
        rw [hpk] at hn
        obtain ⟨all2, rfl, hr'⟩ := (Copies.next_lines hn all').1 hr
        obtain ⟨q1, rfl⟩ := (ih _ _ _ _ hr' _ (if_pos rfl)).1 t
        simp only [List.length_cons] at q1 ⊢
        exact ⟨by omega, rfl⟩
    · rintro ⟨hlen, rfl⟩
      cases all' with
      | nil => simp at hlen
      | cons o all2 =>
        obtain ⟨pre', rest', hn, hr'⟩ := Copies.exists_next hr rfl
        rw [List.take_succ_cons]
        refine .turn (hpk.symm ▸ hn) ((ih _ _ _ _ hr' _ (if_pos rfl)).2 ⟨?_, rfl⟩)
        simp only [List.length_cons] at hlen ⊢
        omega

/-- Not vacuous: two copies at `a`; the first one comes across the header, the second does not. -/
example : ∃ (i : CfIter) (s : IStream Char) (os : List Opt),
    openConfig some '\n' { rest := str% "a=1\n[s]\nb=2\nc=3\n[t]\nd=4\n" } [] true = .ok (i, s) ∧ i.atEof = false ∧
    Turns (fun _ => i) s [0, 1, 1] os ∧ os.map (·.stringKey) = [str% "s.b", str% "c", str% "t.d"] :=
  ⟨_, _, _, get_option rfl rfl rfl, rfl, .turn ((get_section rfl rfl rfl).trans (get_option rfl rfl rfl)) rfl
    (.turn (get_option rfl rfl rfl) rfl (.turn ((get_section rfl rfl rfl).trans (get_option rfl rfl rfl)) rfl .done)), rfl⟩

end PO
