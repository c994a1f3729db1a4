import Verif.Props.HelpText
import Verif.Model.Release
import Verif.Spec.Release
/-
C126: the help in a build without assertions.
-/
namespace PO.Release
open Spec

def tabError : Fail := .error (str% "Only one tab per paragraph is allowed in the options description")

theorem usub_le {a b : Nat} (h : b ≤ a) (ha : a < 2 ^ 32) : usub a b = a - b := by
  unfold usub
  have : a + (2 ^ 32 - b) = (a - b) + 2 ^ 32 := by omega
  rw [this, Nat.add_mod_right, Nat.mod_eq_of_lt (by omega)]

theorem usub_lt {a b : Nat} (h : a < b) (hb : b ≤ 2 ^ 32) : usub a b = 2 ^ 32 - (b - a) := by
  unfold usub
  rw [Nat.mod_eq_of_lt (by omega)]
  omega

/-! ### One paragraph -/

/-- The tab, if there is one. -/
theorem tab_cases (par : Str) :
    ('\t' ∉ par ∧ findChar par '\t' = none) ∨
    (1 < par.count '\t' ∧ ∃ i, findChar par '\t' = some i) ∨
    (∃ a b, par = a ++ '\t' :: b ∧ '\t' ∉ a ∧ '\t' ∉ b ∧ findChar par '\t' = some a.length ∧ par.count '\t' = 1 ∧
      par.take a.length ++ par.drop (a.length + 1) = a ++ b) := by
  rcases findChar_spec par '\t' with ⟨h1, h2⟩ | ⟨i, h1, h2, h3, h4, h5, h6⟩
  · exact .inl ⟨h2, h1⟩
  · right
    have hpar : par = par.take i ++ '\t' :: par.drop (i + 1) := by rw [← h6, List.take_append_drop]
    have hlen : (par.take i).length = i := by rw [List.length_take]; omega
    by_cases hc : 1 < par.count '\t'
    · exact .inl ⟨hc, i, h1⟩
    · right
      have hb : '\t' ∉ par.drop (i + 1) := by
        rw [← List.count_eq_zero]
        rw [hpar, List.count_append, List.count_cons_self] at hc
        omega
      refine ⟨par.take i, par.drop (i + 1), hpar, h5, hb, by rw [hlen]; exact h1, ?_, by rw [hlen]⟩
      have := List.count_pos_iff.2 h4
      omega

theorem filter_tab {a b : Str} (ha : '\t' ∉ a) (hb : '\t' ∉ b) : (a ++ '\t' :: b).filter (· ≠ '\t') = a ++ b := by
  rw [List.filter_append, List.filter_cons_of_neg (by simp), List.filter_eq_self.2, List.filter_eq_self.2]
  · intro c hc; simp; rintro rfl; exact hb hc
  · intro c hc; simp; rintro rfl; exact ha hc

theorem filter_none {s : Str} (h : '\t' ∉ s) : s.filter (· ≠ '\t') = s := by
  rw [List.filter_eq_self]
  intro c hc; simp; rintro rfl; exact h hc

/-- With room for at least one column. -/
theorem room_lines {col n pi : Nat} {p : Str} (h : col < n) (hn : n < 2 ^ 32) (hp : pi < n - col) :
    ∃ ls, Lines (n - col - pi) (n - col) p ls ∧
      (match (if p.length < usub n col then .ok (pi, [p])
          else if p = [] then .ok (pi, [[]])
          else if usub n col = 0 then .error (.ub .formatRange)
          else
            match wrapRest p.length (p.drop (lineEnd p (usub n col))) (usub n col - pi) with
            | .error f => .error f
            | .ok ls => .ok (pi, p.take (lineEnd p (usub n col)) :: ls) : Except Fail (Nat × List Str)) with
        | .error f => Except.error f
        | .ok (pi, ls) => .ok (joinLines (col + pi) ls)) = .ok ((newLine (col + pi)).intercalate ls) := by
  rw [usub_le (by omega) hn]
  have hx := lines_exact (m := n - col - pi) (n := n - col) (by omega) (by omega) p
  by_cases hs : p.length < n - col
  · refine ⟨[p], (hx [p]).1 (by rw [if_pos hs]), ?_⟩
    rw [if_pos hs]
    simp [joinLines, List.intercalate]
  · obtain ⟨t, ht⟩ := wrapRest_ok (n - col - pi) (by omega) p.length (p.drop (lineEnd p (n - col))) (by rw [List.length_drop]; omega)
    refine ⟨p.take (lineEnd p (n - col)) :: t, (hx _).1 (by rw [if_neg hs, ht]), ?_⟩
    rw [if_neg hs, if_neg (by rintro rfl; simp at hs; omega), if_neg (by omega), ht]
    simp [joinLines_intercalate, newLine]

theorem lines_unique {m n : Nat} (hm : 0 < m) (hn : 0 < n) {s : Str} {ls ls' : List Str} (h : Lines m n s ls) (h' : Lines m n s ls') : ls = ls' := by
  have h1 := (lines_exact hm hn s ls).2 h
  have h2 := (lines_exact hm hn s ls').2 h'
  rw [h1] at h2
  cases h2
  rfl

/-- What becomes of a paragraph. -/
theorem paragraph_outcome (par : Str) {col n : Nat} (hn : n < 2 ^ 32) (hc : col < 2 ^ 31) (hp : par.length < 2 ^ 31) :
    (par.count '\t' ≤ 1 ∧ (n = col → par = [] ∨ par = ['\t']) ∧
      ∃ out, formatParagraph par col n = .ok out ∧ ∀ out', LooseParagraph col n par out' ↔ out' = out) ∨
    (1 < par.count '\t' ∧ formatParagraph par col n = .error tabError ∧ ∀ out', ¬ LooseParagraph col n par out') ∨
    (par.count '\t' ≤ 1 ∧ n = col ∧ par ≠ [] ∧ par ≠ ['\t'] ∧ formatParagraph par col n = .error (.ub .formatRange) ∧
      ∀ out', ¬ LooseParagraph col n par out') := by
  have base : formatParagraph par col n = (match (match parIndent par (usub n col) with
      | .error f => Except.error f
      | .ok (pi, p) =>
        (if p.length < usub n col then .ok (pi, [p])
          else if p = [] then .ok (pi, [[]])
          else if usub n col = 0 then .error (.ub .formatRange)
          else
            match wrapRest p.length (p.drop (lineEnd p (usub n col))) (usub n col - pi) with
            | .error f => .error f
            | .ok ls => .ok (pi, p.take (lineEnd p (usub n col)) :: ls) : Except Fail (Nat × List Str))) with
      | .error f => Except.error f
      | .ok (pi, ls) => .ok (joinLines (col + pi) ls)) := rfl
  rcases tab_cases par with ⟨h1, h2⟩ | ⟨h1, i, h2⟩ | ⟨a, b, rfl, ha, hb, h2, h3, h4⟩
  · -- no tab
    have hi : parIndent par (usub n col) = .ok (0, par) := by unfold parIndent; rw [h2]
    have hct : par.count '\t' ≤ 1 := by rw [List.count_eq_zero.2 h1]; omega
    rw [hi] at base
    dsimp only at base
    rcases Nat.lt_trichotomy col n with hlt | rfl | hgt
    · left
      obtain ⟨ls, hl, he⟩ := room_lines (p := par) (pi := 0) hlt hn (by omega)
      refine ⟨hct, fun e => by omega, _, base.trans he, fun out' => ?_⟩
      constructor
      · intro h
        generalize hq : par = q at h
        cases h with
        | usual _ hp =>
          cases hp with
          | plain _ hl' => subst hq; rw [lines_unique (by omega) (by omega) hl' hl]; rfl
          | tab => subst hq; simp at h1
        | late => subst hq; simp at h1
        | beyond h => omega
        | void h => omega
      · rintro rfl
        exact .usual hlt (.plain h1 hl)
    · by_cases hs : par = []
      · left
        subst hs
        refine ⟨by simp, fun _ => .inl rfl, [], ?_, fun out' => ?_⟩
        · rw [base, usub_le (Nat.le_refl _) hn]; simp [joinLines]
        · constructor
          · intro h
            generalize hq : ([] : Str) = q at h
            cases h with
            | usual h => omega
            | late h => omega
            | beyond h => omega
            | void _ _ => exact hq
          · rintro rfl; exact .void rfl (.inl rfl)
      · right; right
        refine ⟨hct, rfl, hs, by rintro rfl; simp at h1, ?_, fun out' h => ?_⟩
        · rw [base, usub_le (Nat.le_refl _) hn, if_neg (by omega), if_neg hs, if_pos (by omega)]
        · cases h with
          | usual h => omega
          | late h => omega
          | beyond h => omega
          | void _ h => rcases h with h | h
                        · exact hs h
                        · rw [h] at h1; simp at h1
    · left
      refine ⟨hct, fun e => by omega, par, ?_, fun out' => ?_⟩
      · rw [base, usub_lt hgt (by omega), if_pos (by omega)]
        simp [joinLines]
      · constructor
        · intro h
          cases h with
          | usual h => omega
          | late h => omega
          | beyond _ _ => exact filter_none h1
          | void h => omega
        · rintro rfl
          have := LooseParagraph.beyond (s := out') hgt hct
          rwa [filter_none h1] at this
  · -- several tabs
    right; left
    refine ⟨h1, ?_, fun out' h => ?_⟩
    · rw [base]
      unfold parIndent
      rw [h2]
      dsimp only
      rw [if_pos h1]
      rfl
    · cases h with
      | usual _ hp =>
        cases hp with
        | plain h => rw [List.count_eq_zero.2 h] at h1; omega
        | tab ha hb => simp [List.count_append, List.count_eq_zero.2 ha, List.count_eq_zero.2 hb] at h1
      | late _ ha hb => simp [List.count_append, List.count_eq_zero.2 ha, List.count_eq_zero.2 hb] at h1
      | beyond _ h => omega
      | void _ h => rcases h with rfl | rfl <;> simp at h1
  · -- one tab
    have hi : parIndent (a ++ '\t' :: b) (usub n col) = .ok (if a.length ≥ usub n col then 0 else a.length, a ++ b) := by
      unfold parIndent
      rw [h2]
      dsimp only
      rw [if_neg (by omega), h4]
    have uniq : ∀ x y : Str, '\t' ∉ x → a ++ '\t' :: b = x ++ '\t' :: y → a = x ∧ b = y := fun x y hx e => sep_unique ha hx e
    have hmem : '\t' ∈ a ++ '\t' :: b := by simp
    rcases Nat.lt_trichotomy col n with hlt | rfl | hgt
    · left
      by_cases hr : a.length < n - col
      · rw [if_neg (by rw [usub_le (by omega) hn]; omega)] at hi
        rw [hi] at base
        dsimp only at base
        obtain ⟨ls, hl, he⟩ := room_lines (p := a ++ b) (pi := a.length) hlt hn hr
        refine ⟨by omega, fun e => by omega, _, base.trans he, fun out' => ?_⟩
        constructor
        · intro h
          generalize hq : a ++ '\t' :: b = q at h
          cases h with
          | usual _ hp =>
            cases hp with
            | plain h => subst hq; exact absurd hmem h
            | tab ha' hb' hn' hl' =>
              obtain ⟨rfl, rfl⟩ := uniq _ _ ha' hq
              rw [lines_unique (by omega) (by omega) hl' hl]
          | late _ ha' _ hn' =>
            obtain ⟨rfl, rfl⟩ := uniq _ _ ha' hq
            omega
          | beyond h => omega
          | void h => omega
        · rintro rfl
          exact .usual hlt (.tab ha hb hr hl)
      · rw [if_pos (by rw [usub_le (by omega) hn]; omega)] at hi
        rw [hi] at base
        dsimp only at base
        obtain ⟨ls, hl, he⟩ := room_lines (p := a ++ b) (pi := 0) hlt hn (by omega)
        refine ⟨by omega, fun e => by omega, _, base.trans he, fun out' => ?_⟩
        constructor
        · intro h
          generalize hq : a ++ '\t' :: b = q at h
          cases h with
          | usual _ hp =>
            cases hp with
            | plain h => subst hq; exact absurd hmem h
            | tab ha' hb' hn' hl' =>
              obtain ⟨rfl, rfl⟩ := uniq _ _ ha' hq
              omega
          | late _ ha' _ hn' hl' =>
            obtain ⟨rfl, rfl⟩ := uniq _ _ ha' hq
            rw [lines_unique (by omega) (by omega) hl' hl]
            rfl
          | beyond h => omega
          | void h => omega
        · rintro rfl
          exact .late hlt ha hb (by omega) hl
    · rw [hi] at base
      dsimp only at base
      by_cases hs : a ++ b = []
      · left
        obtain ⟨rfl, rfl⟩ := List.append_eq_nil_iff.1 hs
        refine ⟨by simp, fun _ => .inr rfl, [], ?_, fun out' => ?_⟩
        · rw [base, usub_le (Nat.le_refl _) hn]; simp [joinLines]
        · constructor
          · intro h
            generalize hq : ([] : Str) ++ '\t' :: [] = q at h
            cases h with
            | usual h => omega
            | late h => omega
            | beyond h => omega
            | void _ _ => rfl
          · rintro rfl; exact .void rfl (.inr rfl)
      · right; right
        have hne : a ++ '\t' :: b ≠ ['\t'] := by
          intro e
          obtain ⟨rfl, rfl⟩ := uniq [] [] (by simp) e
          exact hs rfl
        refine ⟨by omega, rfl, by simp, hne, ?_, fun out' h => ?_⟩
        · rw [base, usub_le (Nat.le_refl _) hn, if_neg (by omega), if_neg hs, if_pos (by omega)]
        · generalize hq : a ++ '\t' :: b = q at h
          cases h with
          | usual h => omega
          | late h => omega
          | beyond h => omega
          | void _ h =>
            rcases h with h | h
            · rw [h] at hq; simp at hq
            · exact hne (hq.trans h)
    · rw [hi] at base
      dsimp only at base
      left
      refine ⟨by omega, fun e => by omega, a ++ b, ?_, fun out' => ?_⟩
      · have : (a ++ b).length < 2 ^ 32 - (col - n) := by simp at hp ⊢; omega
        rw [base, usub_lt hgt (by omega), if_pos this]
        simp [joinLines]
      · constructor
        · intro h
          generalize hq : a ++ '\t' :: b = q at h
          cases h with
          | usual h => omega
          | late h => omega
          | beyond _ _ => subst hq; exact filter_tab ha hb
          | void h => omega
        · rintro rfl
          have := LooseParagraph.beyond (s := a ++ '\t' :: b) hgt (by omega)
          rwa [filter_tab ha hb] at this

theorem paragraph_exact (par out : Str) {col n : Nat} (hn : n < 2 ^ 32) (hc : col < 2 ^ 31) (hp : par.length < 2 ^ 31) :
    formatParagraph par col n = .ok out ↔ LooseParagraph col n par out := by
  rcases paragraph_outcome par hn hc hp with ⟨-, -, o, h1, h2⟩ | ⟨-, h1, h2⟩ | ⟨-, -, -, -, h1, h2⟩
  · rw [h1, h2]
    constructor
    · intro h; cases h; rfl
    · rintro rfl; rfl
  · rw [h1]
    exact ⟨fun h => (nomatch h), fun h => absurd h (h2 out)⟩
  · rw [h1]
    exact ⟨fun h => (nomatch h), fun h => absurd h (h2 out)⟩

/-! ### Paragraphs -/

theorem formatPars_paragraphs {col ll : Nat} (hn : ll < 2 ^ 32) (hc : col < 2 ^ 31) (k : Nat) : ∀ (s : Str), s.length < 2 ^ 31 → s.length ≤ k → ∀ out,
    (match formatPars col ll (splitNl s) with
      | .error f => Except.error f
      | .ok ts => .ok (joinLines col ts)) = .ok out ↔ LooseParagraphs col ll s out := by
  have one : ∀ s : Str, s.length < 2 ^ 31 → '\n' ∉ s → ∀ out, (match formatPars col ll (splitNl s) with
      | .error f => Except.error f
      | .ok ts => .ok (joinLines col ts)) = .ok out ↔ LooseParagraphs col ll s out := by
    intro s hm hs out
    rw [splitNl_one hs, formatPars, formatPars]
    have key := paragraph_exact s out hn hc hm
    constructor
    · intro h
      refine .one hs (key.1 ?_)
      cases hp : formatParagraph s col ll with
      | error f => rw [hp] at h; cases h
      | ok t => rw [hp] at h; cases h; rfl
    · intro h
      generalize hs' : s = s' at h
      cases h with
      | one _ hp => subst hs'; rw [key.2 hp]; rfl
      | cons => subst hs'; simp at hs
  induction k with
  | zero =>
    intro s hm hs out
    have : s = [] := List.length_eq_zero_iff.1 (by omega)
    subst this
    exact one [] hm (by simp) out
  | succ k ih =>
    intro s hm hs out
    rcases first_nl s with h | ⟨a, b, rfl, h⟩
    · exact one s hm h out
    · have ha : a.length < 2 ^ 31 := by simp at hm; omega
      have ih := ih b (by simp at hm; omega) (by simp at hs; omega)
      rw [splitNl_append h, formatPars]
      have hne : splitNl b ≠ [] := (splitNl_spec b).2.2
      constructor
      · intro e
        cases hp : formatParagraph a col ll with
        | error f => rw [hp] at e; cases e
        | ok t =>
          rw [hp] at e
          dsimp only at e
          cases hq : formatPars col ll (splitNl b) with
          | error f => rw [hq] at e; cases e
          | ok ts =>
            rw [hq] at e
            cases e
            have := (ih (joinLines col ts)).1 (by rw [hq])
            rw [joinLines_intercalate] at this
            have hts : ts ≠ [] := by
              rintro rfl
              cases hb : splitNl b with
              | nil => exact hne hb
              | cons p ps =>
                rw [hb, formatPars] at hq
                cases hp : formatParagraph p col ll with
                | error f => rw [hp] at hq; cases hq
                | ok t =>
                  rw [hp] at hq
                  dsimp only at hq
                  cases hps : formatPars col ll ps with
                  | error f => rw [hps] at hq; cases hq
                  | ok ts => rw [hps] at hq; cases hq
            cases ts with
            | nil => exact absurd rfl hts
            | cons t' ts =>
              have := LooseParagraphs.cons h ((paragraph_exact a t hn hc ha).1 hp) this
              rw [joinLines.eq_3 _ _ _ (by simp), joinLines_intercalate]
              simpa [newLine, spaces] using this
      · intro e
        generalize hs' : a ++ '\n' :: b = s' at e
        cases e with
        | one h' => subst hs'; simp at h'
        | @cons s1 o1 s2 o2 h' hp ht =>
          obtain ⟨rfl, rfl⟩ := sep_unique h h' hs'
          rw [(paragraph_exact a o1 hn hc ha).2 hp]
          dsimp only
          have := (ih o2).2 ht
          cases hq : formatPars col ll (splitNl b) with
          | error f => rw [hq] at this; cases this
          | ok ts =>
            rw [hq] at this
            cases this
            have hts : ts ≠ [] := by
              rintro rfl
              cases hb : splitNl b with
              | nil => exact hne hb
              | cons p ps =>
                rw [hb, formatPars] at hq
                cases hp : formatParagraph p col ll with
                | error f => rw [hp] at hq; cases hq
                | ok t =>
                  rw [hp] at hq
                  dsimp only at hq
                  cases hps : formatPars col ll ps with
                  | error f => rw [hps] at hq; cases hq
                  | ok ts => rw [hps] at hq; cases hq
            cases ts with
            | nil => exact absurd rfl hts
            | cons t' ts =>
              dsimp only
              rw [joinLines.eq_3 _ _ _ (by simp)]
              simp [newLine, spaces]

/-! ### Entries -/

theorem description_exact (desc out : Str) {col ll : Nat} (hn : ll < 2 ^ 32) (hc : col < 2 ^ 31) (hp : desc.length < 2 ^ 31) :
    formatDescription desc col ll = .ok out ↔ LooseParagraphs col (usedColumns ll) desc out :=
  formatPars_paragraphs (ll := usedColumns ll) (by unfold usedColumns; split <;> omega) hc _ desc hp (Nat.le_refl _) out

theorem entry_exact (d : OptionDesc) (out : Str) {col ll : Nat} (hn : ll < 2 ^ 32) (hcol : col < 2 ^ 31) (hp : d.description.length < 2 ^ 31) :
    formatOne d col ll = .ok out ↔ LooseEntry col ll d out := by
  unfold formatOne
  constructor
  · intro h
    cases hl : d.leftColumn with
    | error f => rw [hl] at h; cases h
    | ok left =>
      rw [hl] at h
      have hl := (left_exact d left).1 hl
      dsimp only at h
      by_cases hd : d.description = []
      · rw [if_pos hd] at h; cases h; exact .bare hl hd
      · rw [if_neg hd] at h
        cases ht : formatDescription d.description col ll with
        | error f => rw [ht] at h; cases h
        | ok t =>
          have h2 := (description_exact _ _ hn hcol hp).1 ht
          rw [ht] at h
          dsimp only at h
          injection h with h
          subst h
          by_cases hc : left.length ≥ col
          · rw [if_pos hc]; exact .below hl hd hc h2
          · rw [if_neg hc]; exact .beside hl hd (by omega) h2
  · intro h
    cases h with
    | bare hl hd => rw [(left_exact _ _).2 hl]; dsimp only; rw [if_pos hd]
    | beside hl hd hc ht =>
      rw [(left_exact _ _).2 hl]
      dsimp only
      rw [if_neg hd, (description_exact _ _ hn hcol hp).2 ht]
      dsimp only
      rw [if_neg (by omega)]
      rfl
    | below hl hd hc ht =>
      rw [(left_exact _ _).2 hl]
      dsimp only
      rw [if_neg hd, (description_exact _ _ hn hcol hp).2 ht]
      dsimp only
      rw [if_pos hc]
      rfl

/-- The text of a piece. -/
def pieceText (width : Nat) : Piece → Except Fail Str
  | .caption c => .ok (c ++ [':', '\n'])
  | .blank => .ok ['\n']
  | .entry d ll =>
    match formatOne d width ll with
    | .error f => .error f
    | .ok t => .ok (t ++ ['\n'])

/-- The text of a list of pieces. -/
def piecesText (width : Nat) : List Piece → Except Fail Str
  | [] => .ok []
  | p :: ps =>
    match pieceText width p with
    | .error f => .error f
    | .ok t =>
      match piecesText width ps with
      | .error f => .error f
      | .ok ts => .ok (t ++ ts)

theorem piecesText_append (w : Nat) (ps qs : List Piece) :
    piecesText w (ps ++ qs) =
      match piecesText w ps with
      | .error f => .error f
      | .ok a =>
        match piecesText w qs with
        | .error f => .error f
        | .ok b => .ok (a ++ b) := by
  induction ps with
  | nil => rw [List.nil_append, piecesText]; cases piecesText w qs <;> rfl
  | cons p ps ih =>
    rw [List.cons_append, piecesText, piecesText, ih]
    cases pieceText w p with
    | error f => rfl
    | ok t =>
      cases piecesText w ps with
      | error f => rfl
      | ok a =>
        cases piecesText w qs with
        | error f => rfl
        | ok b => simp

theorem formatOptions_pieces (w ll : Nat) (ds : List OptionDesc) :
    formatOptions w ll ds = piecesText w (ds.map (fun d => .entry d ll)) := by
  induction ds with
  | nil => rfl
  | cons d ds ih =>
    rw [formatOptions, List.map_cons, piecesText, pieceText, ← ih]
    cases formatOne d w ll with
    | error f => rfl
    | ok t =>
      cases formatOptions w ll ds with
      | error f => rfl
      | ok ts => simp

theorem printGroups_append (w : Nat) (gs hs : List OptionsDesc) :
    printGroups w (gs ++ hs) =
      match printGroups w gs with
      | .error f => .error f
      | .ok a =>
        match printGroups w hs with
        | .error f => .error f
        | .ok b => .ok (a ++ b) := by
  induction gs with
  | nil => rw [List.nil_append, printGroups]; cases printGroups w hs <;> rfl
  | cons g gs ih =>
    rw [List.cons_append, printGroups, printGroups, ih]
    cases printWidth w g with
    | error f => rfl
    | ok t =>
      cases printGroups w gs with
      | error f => rfl
      | ok a =>
        cases printGroups w hs with
        | error f => rfl
        | ok b => simp

theorem text_exact (col : Nat) (hcol : col < 2 ^ 31) (ps : List Piece) (hps : ∀ d ll, .entry d ll ∈ ps → ll < 2 ^ 32 ∧ d.description.length < 2 ^ 31) (out : Str) :
    piecesText col ps = .ok out ↔ LooseText col ps out := by
  have piece : ∀ p, (∀ d ll, p = .entry d ll → ll < 2 ^ 32 ∧ d.description.length < 2 ^ 31) → ∀ out, pieceText col p = .ok out ↔ LoosePiece col p out := by
    intro p hp out
    cases p with
    | caption c =>
      constructor
      · intro h; cases h; exact .caption c
      · intro h; cases h; rfl
    | blank =>
      constructor
      · intro h; cases h; exact .blank
      · intro h; cases h; rfl
    | entry d ll =>
      obtain ⟨b1, b2⟩ := hp d ll rfl
      rw [pieceText]
      constructor
      · intro h
        cases hf : formatOne d col ll with
        | error f => rw [hf] at h; cases h
        | ok t => rw [hf] at h; cases h; exact .entry ((entry_exact _ _ b1 hcol b2).1 hf)
      · intro h
        cases h with
        | entry h => rw [(entry_exact _ _ b1 hcol b2).2 h]
  induction ps generalizing out with
  | nil =>
    constructor
    · intro h; cases h; exact .nil
    · intro h; cases h; rfl
  | cons p ps ih =>
    rw [piecesText]
    have piece := piece p fun d ll e => hps d ll (by simp [e])
    have ih := ih fun d ll e => hps d ll (by simp [e])
    constructor
    · intro h
      cases hp : pieceText col p with
      | error f => rw [hp] at h; cases h
      | ok t =>
        rw [hp] at h
        dsimp only at h
        cases hq : piecesText col ps with
        | error f => rw [hq] at h; cases h
        | ok ts => rw [hq] at h; cases h; exact .cons ((piece _).1 hp) ((ih _).1 hq)
    · intro h
      cases h with
      | cons hp ht => rw [(piece _).2 hp, (ih _).2 ht]

/-! ### Building -/

/-- What adding the items does to the parts of the object. -/
structure Adding (w : Nat) (items : Items) (o o' : OptionsDesc) : Prop where
  caption : o'.caption = o.caption
  lineLength : o'.lineLength = o.lineLength
  options : o'.options = o.options ++ items.declared
  belong : o'.belong.length = o'.options.length
  own : ownOptions o'.options o'.belong = ownOptions o.options o.belong ++ items.direct
  groups : ∃ gs, o'.groups = o.groups ++ gs ∧ printGroups w gs = piecesText w items.groupLayout

mutual
theorem build_spec (w : Nat) (t : Tree) : printWidth w (build t) = piecesText w t.layout ∧ (build t).options = t.declared := by
  cases t with
  | mk caption ll md items =>
    rw [build]
    generalize ho : addTo items _ = o
    have ha := addTo_spec w items { caption, lineLength := ll, minDescLen := md, options := [], belong := [], groups := [] } rfl
    rw [ho] at ha
    obtain ⟨c1, c2, c3, c4, c5, gs, c6, c7⟩ := ha
    obtain ⟨oc, oll, omd, oopts, obel, ogrp⟩ := o
    simp only [List.nil_append] at c1 c2 c3 c5 c6
    subst c1 c2 c3 c6
    refine ⟨?_, rfl⟩
    rw [printWidth, Tree.layout, c5, piecesText_append, piecesText_append]
    rw [show ownOptions [] [] = [] from rfl, List.nil_append, formatOptions_pieces, c7]
    have hcap : piecesText w (if oc = [] then [] else [.caption oc]) = .ok (if oc = [] then [] else oc ++ str% ":\n") := by
      by_cases hc : oc = []
      · simp [hc, piecesText]
      · rw [if_neg hc, if_neg hc]
        simp only [piecesText, pieceText, List.append_nil]
    rw [hcap]
    simp only
    cases piecesText w (items.direct.map fun d => .entry d oll) with
    | error f => rfl
    | ok b =>
      cases piecesText w items.groupLayout with
      | error f => rfl
      | ok g => rfl

theorem addTo_spec (w : Nat) (items : Items) (o : OptionsDesc) (hb : o.belong.length = o.options.length) : Adding w items o (addTo items o) := by
  cases items with
  | nil =>
    rw [addTo]
    exact ⟨rfl, rfl, by simp [Items.declared], hb, by simp [Items.direct], [], by simp, by simp [printGroups, Items.groupLayout, piecesText]⟩
  | opt d rest =>
    rw [addTo]
    have ha := addTo_spec w rest (o.addOption d) (by simp [OptionsDesc.addOption, hb])
    obtain ⟨c1, c2, c3, c4, c5, gs, c6, c7⟩ := ha
    refine ⟨c1, c2, by rw [c3]; simp [OptionsDesc.addOption, Items.declared], c4, ?_, gs, c6, by rw [Items.groupLayout]; exact c7⟩
    rw [c5]
    simp only [OptionsDesc.addOption]
    rw [ownOptions_append _ _ _ _ hb.symm]
    simp [ownOptions, Items.direct]
  | group t rest =>
    rw [addTo]
    obtain ⟨p1, p2⟩ := build_spec w t
    have ha := addTo_spec w rest (o.addGroup (build t)) (by simp [OptionsDesc.addGroup, hb])
    obtain ⟨c1, c2, c3, c4, c5, gs, c6, c7⟩ := ha
    refine ⟨c1, c2, by rw [c3]; simp [OptionsDesc.addGroup, Items.declared, p2], c4, ?_, build t :: gs, by rw [c6]; simp [OptionsDesc.addGroup], ?_⟩
    · rw [c5]
      simp only [OptionsDesc.addGroup]
      rw [ownOptions_append _ _ _ _ hb.symm, ownOptions_true]
      simp [Items.direct]
    · rw [Items.groupLayout, printGroups, c7, p1, List.cons_append, piecesText, pieceText, piecesText_append]
      cases piecesText w t.layout with
      | error f => rfl
      | ok a =>
        cases piecesText w rest.groupLayout with
        | error f => rfl
        | ok b => simp
end

/-! ### The column -/

/-- What adding the items does to the column. -/
structure AddingColumn (items : Items) (o o' : OptionsDesc) : Prop where
  lineLength : o'.lineLength = o.lineLength
  minDescLen : o'.minDescLen = o.minDescLen
  options : o'.options = o.options ++ items.declared
  groups : ∃ gs, o'.groups = o.groups ++ gs ∧ ∀ b w, groupsWidth gs b = .ok w ↔ ∃ ws, LooseColumns items ws ∧ w = ws.foldl max b

theorem room_exact {ll md : Nat} (hl : ll < 2 ^ 32) (hm : md < 2 ^ 32) (room : Nat) :
    (md < ll ∧ room = ll - md - 1 ∨ ll ≤ md ∧ room = 2 ^ 32 - 1 - (md - ll)) ↔ room = usub (usub ll md) 1 := by
  rcases Nat.lt_trichotomy md ll with h | rfl | h
  · rw [usub_le (Nat.le_of_lt h) hl, usub_le (by omega) (by omega)]
    omega
  · rw [usub_le (Nat.le_refl _) hl, Nat.sub_self, usub_lt (by omega) (by omega)]
    omega
  · rw [usub_lt h (by omega), usub_le (by omega) (by omega)]
    omega

mutual
theorem column_exact (t : Tree) (hs : ∀ p ∈ t.sizes, p.1 < 2 ^ 32 ∧ p.2 < 2 ^ 32) (w : Nat) : columnWidth (build t) = .ok w ↔ LooseColumn t w := by
  cases t with
  | mk caption ll md items =>
    rw [Tree.sizes] at hs
    obtain ⟨hll, hmd⟩ := hs (ll, md) (by simp)
    have room := room_exact hll hmd
    rw [build]
    generalize ho : addTo items _ = o
    have ha := items_column_exact items (fun p hp => hs p (by simp [hp]))
      { caption, lineLength := ll, minDescLen := md, options := [], belong := [], groups := [] }
    rw [ho] at ha
    obtain ⟨c1, c2, c3, gs, c4, c5⟩ := ha
    obtain ⟨oc, oll, omd, oopts, obel, ogrp⟩ := o
    simp only [List.nil_append] at c1 c2 c3 c4
    subst c1 c2 c3 c4
    rw [columnWidth]
    constructor
    · intro h
      cases h1 : maxLeft items.declared 23 with
      | error f => rw [h1] at h; cases h
      | ok w1 =>
        rw [h1] at h
        dsimp only at h
        cases h2 : groupsWidth ogrp w1 with
        | error f => rw [h2] at h; cases h
        | ok w2 =>
          rw [h2] at h
          dsimp only at h
          obtain ⟨lefts, a1, a2⟩ := (maxLeft_exact _ _ _).1 h1
          obtain ⟨ws, b1, b2⟩ := (c5 _ _).1 h2
          have hb : Largest (23 :: lefts ++ ws) w2 := by
            rw [List.cons_append, largest_cons, List.foldl_append, ← a2]
            exact b2
          cases h
          exact .mk a1 b1 hb ((room _).2 rfl)
    · intro h
      cases h with
      | @mk _ _ _ _ lefts groups b r hl hg hb hm =>
        rw [List.cons_append, largest_cons, List.foldl_append] at hb
        rw [(maxLeft_exact _ _ _).2 ⟨lefts, hl, rfl⟩]
        dsimp only
        rw [(c5 _ _).2 ⟨groups, hg, hb⟩]
        dsimp only
        rw [(room _).1 hm]

theorem items_column_exact (items : Items) (hs : ∀ p ∈ items.sizes, p.1 < 2 ^ 32 ∧ p.2 < 2 ^ 32) (o : OptionsDesc) :
    AddingColumn items o (addTo items o) := by
  cases items with
  | nil =>
    rw [addTo]
    refine ⟨rfl, rfl, by simp [Items.declared], [], by simp, ?_⟩
    intro b w
    rw [groupsWidth]
    constructor
    · intro h; cases h; exact ⟨[], .nil, rfl⟩
    · rintro ⟨ws, h, e⟩; cases h; rw [e]; rfl
  | opt d rest =>
    rw [addTo]
    obtain ⟨c1, c2, c3, gs, c4, c5⟩ := items_column_exact rest (by rwa [Items.sizes] at hs) (o.addOption d)
    refine ⟨c1, c2, by rw [c3]; simp [OptionsDesc.addOption, Items.declared], gs, c4, ?_⟩
    intro b w
    rw [c5]
    constructor
    · rintro ⟨ws, h, e⟩; exact ⟨ws, .opt h, e⟩
    · rintro ⟨ws, h, e⟩
      cases h with
      | opt h => exact ⟨ws, h, e⟩
  | group t rest =>
    rw [addTo]
    rw [Items.sizes] at hs
    have p1 := column_exact t (fun p hp => hs p (by simp [hp]))
    have p2 := (build_spec 1 t).2
    obtain ⟨c1, c2, c3, gs, c4, c5⟩ := items_column_exact rest (fun p hp => hs p (by simp [hp])) (o.addGroup (build t))
    refine ⟨c1, c2, by rw [c3]; simp [OptionsDesc.addGroup, Items.declared, p2], build t :: gs, by rw [c4]; simp [OptionsDesc.addGroup], ?_⟩
    intro b w
    rw [groupsWidth]
    constructor
    · intro h
      cases hg : columnWidth (build t) with
      | error f => rw [hg] at h; cases h
      | ok wg =>
        rw [hg] at h
        obtain ⟨ws, h1, h2⟩ := (c5 _ _).1 h
        exact ⟨wg :: ws, .group ((p1 wg).1 hg) h1, h2⟩
    · rintro ⟨ws, h, e⟩
      cases h with
      | group h hr =>
        rw [(p1 _).2 h]
        exact (c5 _ _).2 ⟨_, hr, e⟩
end

/-- **C126.** The help without assertions, character by character: with the given column for the descriptions exactly the text that `LooseText` derives, and without
a given column with the one that `LooseColumn` gives. -/
theorem C126_help (t : Tree) (hs : ModestSizes t) (text : Str) :
    (∀ width, width ≠ 0 → width < 2 ^ 31 → (print (build t) width = .ok text ↔ LooseText width t.layout text)) ∧
    ((∀ w, LooseColumn t w → w < 2 ^ 31) → (print (build t) = .ok text ↔ ∃ w, LooseColumn t w ∧ LooseText w t.layout text)) := by
  have hps : ∀ d ll, .entry d ll ∈ t.layout → ll < 2 ^ 32 ∧ d.description.length < 2 ^ 31 := by
    intro d ll h
    obtain ⟨h1, md, h2⟩ := t.layout_entry d ll h
    exact ⟨(hs.lengths _ h2).1, hs.descriptions d h1⟩
  constructor
  · intro width hw hlt
    rw [print, if_neg hw, (build_spec width t).1, text_exact _ hlt _ hps]
  · intro hlt
    rw [print, if_pos rfl]
    constructor
    · intro hp
      cases hc : columnWidth (build t) with
      | error f => rw [hc] at hp; cases hp
      | ok w =>
        have hw := (column_exact t hs.lengths w).1 hc
        rw [hc] at hp
        dsimp only at hp
        rw [(build_spec w t).1, text_exact _ (hlt w hw) _ hps] at hp
        exact ⟨w, hw, hp⟩
    · rintro ⟨w, hc, ht⟩
      rw [(column_exact t hs.lengths w).2 hc]
      dsimp only
      rw [(build_spec w t).1, text_exact _ (hlt w hc) _ hps]
      exact ht

/-! ### With assertions -/

theorem loose_paragraphs {col n : Nat} (h : col < n) {s out : Str} (hp : Paragraphs col (n - col) s out) : LooseParagraphs col n s out := by
  generalize hm : n - col = m at hp
  induction hp with
  | one h1 h2 => exact .one h1 (.usual h (hm ▸ h2))
  | cons h1 h2 _ ih => exact .cons h1 (.usual h (hm ▸ h2)) ih

theorem loose_text {col : Nat} {ps : List Piece} {out : Str} (h : Text col ps out) : LooseText col ps out := by
  have used : ∀ ll : Nat, col + 1 < ll → usedColumns ll = ll - 1 := fun ll h => by unfold usedColumns; rw [if_pos (by omega)]
  induction h with
  | nil => exact .nil
  | cons h _ ih =>
    refine .cons ?_ ih
    cases h with
    | caption => exact .caption _
    | blank => exact .blank
    | entry h =>
      refine .entry ?_
      cases h with
      | bare h1 h2 => exact .bare h1 h2
      | beside h1 h2 h3 h4 h5 => exact .beside h1 h2 h3 (by rw [used _ h4]; exact loose_paragraphs (by omega) h5)
      | below h1 h2 h3 h4 h5 => exact .below h1 h2 h3 (by rw [used _ h4]; exact loose_paragraphs (by omega) h5)

mutual
theorem loose_column (t : Tree) (o : OptionsDesc) (h : t.build = .ok o) (w : Nat) (hw : Column t w) : LooseColumn t w := by
  cases t with
  | mk caption ll md items =>
    rw [Tree.build] at h
    unfold OptionsDesc.make at h
    split at h
    · cases h
    · rename_i o0 he
      have hlt : md < if ll = 0 then uintMax else ll - 1 := by
        by_cases hm : md < (if ll = 0 then uintMax else ll - 1)
        · exact hm
        · rw [if_neg hm] at he; cases he
      cases hw with
      | mk h1 h2 h3 h4 =>
        refine .mk h1 (loose_columns items o0 o h _ h2) h3 ?_
        rcases h4 with ⟨hz, e⟩ | ⟨hz, e⟩
        · rw [if_neg hz] at hlt
          exact .inl ⟨by omega, e⟩
        · exact .inr ⟨by omega, by rw [e, hz]; omega⟩

theorem loose_columns (items : Items) (o o' : OptionsDesc) (h : items.addTo o = .ok o') (ws : List Nat) (hw : Columns items ws) : LooseColumns items ws := by
  cases items with
  | nil => cases hw; exact .nil
  | opt d rest =>
    rw [Items.addTo] at h
    cases hw with
    | opt hw => exact .opt (loose_columns rest _ _ h _ hw)
  | group t rest =>
    rw [Items.addTo] at h
    cases ht : t.build with
    | error f => rw [ht] at h; cases h
    | ok g =>
      rw [ht] at h
      dsimp only at h
      cases hw with
      | group h1 h2 => exact .group (loose_column t g ht _ h1) (loose_columns rest _ _ h _ h2)
end

/-- Where the build with assertions prints a help, the one without prints the same. -/
theorem C126_same (t : Tree) (hs : ModestSizes t) (o : OptionsDesc) (h : t.build = .ok o) (text : Str) :
    (∀ width, width ≠ 0 → width < 2 ^ 31 → o.print width = .ok text → print (build t) width = .ok text) ∧
    ((∀ w, LooseColumn t w → w < 2 ^ 31) → o.print = .ok text → print (build t) = .ok text) := by
  constructor
  · intro width hw hlt hp
    exact ((C126_help t hs text).1 width hw hlt).2 (loose_text (((C81_help t o h text).1 width hw).1 hp))
  · intro hlt hp
    obtain ⟨w, h1, h2⟩ := (C81_help t o h text).2.1 hp
    exact ((C126_help t hs text).2 hlt).2 ⟨w, loose_column t o h w h1, loose_text h2⟩

/-! ### What is undefined, and what is an error -/

theorem some_paragraph_iff (s : Str) (p : Str → Prop) : SomeParagraph s p ↔ ∃ par ∈ splitNl s, p par := by
  have gen : ∀ (k : Nat) (s : Str), s.length ≤ k → (SomeParagraph s p ↔ ∃ par ∈ splitNl s, p par) := by
    have one : ∀ s : Str, '\n' ∉ s → (SomeParagraph s p ↔ ∃ par ∈ splitNl s, p par) := by
      intro s hs
      rw [splitNl_one hs]
      constructor
      · rintro ⟨pre, par, post, rfl, h1, h2, h3, h4⟩
        have e1 : pre = [] := by
          rcases h2 with h2 | h2
          · exact h2
          · exact absurd (List.mem_of_getLast? h2) (fun h => hs (by simp [h]))
        have e2 : post = [] := by
          rcases h3 with h3 | h3
          · exact h3
          · exact absurd (List.mem_of_head? h3) (fun h => hs (by simp [h]))
        subst e1 e2
        exact ⟨par, by simp, h4⟩
      · rintro ⟨par, hm, hp⟩
        rw [List.mem_singleton] at hm
        subst hm
        exact ⟨[], par, [], by simp, hs, .inl rfl, .inl rfl, hp⟩
    intro k
    induction k with
    | zero =>
      intro s hs
      have : s = [] := List.length_eq_zero_iff.1 (by omega)
      subst this
      exact one [] (by simp)
    | succ k ih =>
      intro s hs
      rcases first_nl s with h | ⟨a, b, rfl, h⟩
      · exact one s h
      · have ih := ih b (by simp at hs; omega)
        rw [splitNl_append h]
        constructor
        · rintro ⟨pre, par, post, e, h1, h2, h3, h4⟩
          rcases h2 with rfl | h2
          · rcases h3 with rfl | h3
            · simp only [List.nil_append, List.append_nil] at e
              exact absurd (e ▸ h1) (by simp)
            · cases post with
              | nil => cases h3
              | cons c post =>
                cases h3
                obtain ⟨rfl, -⟩ := sep_unique h h1 (by simpa using e)
                exact ⟨a, by simp, h4⟩
          · obtain ⟨pre', rfl⟩ := List.getLast?_eq_some_iff.1 h2
            have hin : SomeParagraph b p := by
              rcases first_nl pre' with hn | ⟨x, y, rfl, hn⟩
              · obtain ⟨-, e⟩ := sep_unique (b := b) (b' := par ++ post) h hn (by simpa using e)
                exact ⟨[], par, post, by simpa using e, h1, .inl rfl, h3, h4⟩
              · obtain ⟨-, e⟩ := sep_unique (b := b) (b' := y ++ '\n' :: (par ++ post)) h hn (by simpa using e)
                exact ⟨y ++ ['\n'], par, post, by simpa using e, h1, .inr (by simp), h3, h4⟩
            obtain ⟨q, h5, h6⟩ := ih.1 hin
            exact ⟨q, by simp [h5], h6⟩
        · rintro ⟨par, hm, hp⟩
          rcases List.mem_cons.1 hm with rfl | hm
          · exact ⟨[], par, '\n' :: b, by simp, h, .inl rfl, .inr rfl, hp⟩
          · obtain ⟨pre, q, post, e, h1, h2, h3, h4⟩ := ih.2 ⟨par, hm, hp⟩
            refine ⟨a ++ '\n' :: pre, q, post, by rw [e]; simp, h1, .inr ?_, h3, h4⟩
            rcases h2 with rfl | h2
            · simp
            · cases pre with
              | nil => cases h2
              | cons c pre => rw [List.getLast?_append, List.getLast?_cons_cons, h2]; rfl
  exact gen s.length s (Nat.le_refl _)

theorem formatPars_outcome (col ll : Nat) (ps : List Str) :
    ((∀ p ∈ ps, ∃ t, formatParagraph p col ll = .ok t) ∧ ∃ ts, formatPars col ll ps = .ok ts) ∨
    ∃ p ∈ ps, ∃ f, formatParagraph p col ll = .error f ∧ formatPars col ll ps = .error f := by
  induction ps with
  | nil => exact .inl ⟨by simp, _, rfl⟩
  | cons p ps ih =>
    rw [formatPars]
    cases hp : formatParagraph p col ll with
    | error f => exact .inr ⟨p, by simp, f, hp, rfl⟩
    | ok t =>
      rcases ih with ⟨h1, ts, h2⟩ | ⟨q, h1, f, h2, h3⟩
      · exact .inl ⟨by simpa using ⟨⟨t, hp⟩, h1⟩, t :: ts, by rw [h2]⟩
      · exact .inr ⟨q, by simp [h1], f, h2, by rw [h3]⟩

/-- What becomes of an entry. -/
theorem entry_outcome (d : OptionDesc) {col ll : Nat} (hn : ll < 2 ^ 32) (hc : col < 2 ^ 31) (hp : d.description.length < 2 ^ 31) :
    (PrintableEntry col ll d ∧ ∃ t, formatOne d col ll = .ok t) ∨
    (formatOne d col ll = .error tabError ∧ SomeParagraph d.description fun p => 1 < p.count '\t') ∨
    (∃ u, formatOne d col ll = .error (.ub u)) ∧ (d.shortName = [] ∧ d.longNames = [] ∨
      usedColumns ll = col ∧ SomeParagraph d.description fun p => p ≠ [] ∧ p ≠ ['\t']) := by
  by_cases hname : d.shortName ≠ [] ∨ d.longNames ≠ []
  · obtain ⟨left, hl⟩ := leftColumn_ok d hname
    have hu : usedColumns ll < 2 ^ 32 := by unfold usedColumns; split <;> omega
    have hlen : ∀ p ∈ splitNl d.description, p.length < 2 ^ 31 := by
      intro p hm
      obtain ⟨pre, post, e⟩ := splitNl_infix _ _ hm
      rw [e] at hp
      simp at hp
      omega
    have hfd : formatDescription d.description col ll = match formatPars col (usedColumns ll) (splitNl d.description) with
        | .error f => .error f
        | .ok ts => .ok (joinLines col ts) := rfl
    have hf1 : d.description ≠ [] → formatOne d col ll = match formatDescription d.description col ll with
        | .error f => .error f
        | .ok t => .ok (left ++ (if left.length ≥ col then '\n' :: spaces col else spaces (col - left.length)) ++ t) := by
      intro hd
      unfold formatOne
      rw [hl]
      dsimp only
      rw [if_neg hd]
      cases formatDescription d.description col ll <;> rfl
    rcases formatPars_outcome col (usedColumns ll) (splitNl d.description) with ⟨h1, ts, h2⟩ | ⟨q, h1, f, h2, h3⟩
    · left
      refine ⟨⟨hname, ?_, ?_⟩, ?_⟩
      · rw [some_paragraph_iff]
        rintro ⟨p, hm, hp⟩
        obtain ⟨t, ht⟩ := h1 p hm
        rcases paragraph_outcome p hu hc (hlen p hm) with ⟨h, -, -⟩ | ⟨-, h, -⟩ | ⟨-, -, -, -, h, -⟩
        · omega
        · rw [h] at ht; cases ht
        · rw [h] at ht; cases ht
      · intro e
        rw [some_paragraph_iff]
        rintro ⟨p, hm, hp⟩
        obtain ⟨t, ht⟩ := h1 p hm
        rcases paragraph_outcome p hu hc (hlen p hm) with ⟨-, h, -⟩ | ⟨-, h, -⟩ | ⟨-, -, -, -, h, -⟩
        · rcases h e with h | h
          · exact hp.1 h
          · exact hp.2 h
        · rw [h] at ht; cases ht
        · rw [h] at ht; cases ht
      · by_cases hd : d.description = []
        · unfold formatOne
          rw [hl]
          dsimp only
          rw [if_pos hd]
          exact ⟨_, rfl⟩
        · rw [hf1 hd, hfd, h2]
          exact ⟨_, rfl⟩
    · right
      have hd : d.description ≠ [] := by
        intro hd
        rw [hd] at h1
        have : q = [] := by simpa [splitNl] using h1
        subst this
        rcases paragraph_outcome [] hu hc (by simp) with ⟨-, -, o, h, -⟩ | ⟨h, -⟩ | ⟨-, -, h, -⟩
        · rw [h] at h2; cases h2
        · simp at h
        · exact h rfl
      have hf : formatOne d col ll = .error f := by rw [hf1 hd, hfd, h3]
      rw [hf, some_paragraph_iff, some_paragraph_iff]
      rcases paragraph_outcome q hu hc (hlen q h1) with ⟨-, -, o, h, -⟩ | ⟨hc2, h, -⟩ | ⟨-, he, hq1, hq2, h, -⟩
      · rw [h] at h2; cases h2
      · rw [h] at h2; cases h2
        exact .inl ⟨rfl, q, h1, hc2⟩
      · rw [h] at h2; cases h2
        exact .inr ⟨⟨_, rfl⟩, .inr ⟨he, q, h1, hq1, hq2⟩⟩
  · have h1 : d.shortName = [] := by
      by_cases h : d.shortName = []
      · exact h
      · exact absurd (.inl h) hname
    have h2 : d.longNames = [] := by
      by_cases h : d.longNames = []
      · exact h
      · exact absurd (.inr h) hname
    right; right
    refine ⟨?_, .inl ⟨h1, h2⟩⟩
    unfold formatOne OptionDesc.leftColumn OptionDesc.formatName
    rw [h1, h2]
    exact ⟨_, rfl⟩

theorem pieces_outcome {col : Nat} (hc : col < 2 ^ 31) (ps : List Piece) (hps : ∀ d ll, .entry d ll ∈ ps → ll < 2 ^ 32 ∧ d.description.length < 2 ^ 31) :
    ((∀ d ll, .entry d ll ∈ ps → PrintableEntry col ll d) ∧ ∃ t, piecesText col ps = .ok t) ∨
    ∃ d ll, .entry d ll ∈ ps ∧ ¬ PrintableEntry col ll d ∧
      ((piecesText col ps = .error tabError ∧ SomeParagraph d.description fun p => 1 < p.count '\t') ∨
       (∃ u, piecesText col ps = .error (.ub u)) ∧ (d.shortName = [] ∧ d.longNames = [] ∨
         usedColumns ll = col ∧ SomeParagraph d.description fun p => p ≠ [] ∧ p ≠ ['\t'])) := by
  induction ps with
  | nil => exact .inl ⟨by simp, _, rfl⟩
  | cons p ps ih =>
    have ih := ih fun d ll h => hps d ll (by simp [h])
    have step : ∀ t, pieceText col p = .ok t → (∀ d ll, p = .entry d ll → PrintableEntry col ll d) →
        ((∀ d ll, .entry d ll ∈ p :: ps → PrintableEntry col ll d) ∧ ∃ t, piecesText col (p :: ps) = .ok t) ∨
        ∃ d ll, .entry d ll ∈ p :: ps ∧ ¬ PrintableEntry col ll d ∧
          ((piecesText col (p :: ps) = .error tabError ∧ SomeParagraph d.description fun p => 1 < p.count '\t') ∨
           (∃ u, piecesText col (p :: ps) = .error (.ub u)) ∧ (d.shortName = [] ∧ d.longNames = [] ∨
             usedColumns ll = col ∧ SomeParagraph d.description fun p => p ≠ [] ∧ p ≠ ['\t'])) := by
      intro t ht hok
      rcases ih with ⟨h1, ts, h2⟩ | ⟨d, ll, h1, h2, h3⟩
      · left
        refine ⟨fun d ll hm => ?_, t ++ ts, by rw [piecesText, ht, h2]⟩
        rcases List.mem_cons.1 hm with h | h
        · exact hok d ll h.symm
        · exact h1 d ll h
      · right
        refine ⟨d, ll, by simp [h1], h2, ?_⟩
        rcases h3 with ⟨h3, h4⟩ | ⟨⟨u, h3⟩, h4⟩
        · exact .inl ⟨by rw [piecesText, ht, h3], h4⟩
        · exact .inr ⟨⟨u, by rw [piecesText, ht, h3]⟩, h4⟩
    cases p with
    | caption c => exact step _ rfl (by simp)
    | blank => exact step _ rfl (by simp)
    | entry d ll =>
      obtain ⟨b1, b2⟩ := hps d ll (by simp)
      rcases entry_outcome d b1 hc b2 with ⟨h1, t, h2⟩ | ⟨h1, h2⟩ | ⟨⟨u, h1⟩, h2⟩
      · refine step (t ++ ['\n']) (by rw [pieceText, h2]) ?_
        intro d' ll' e
        cases e
        exact h1
      · exact .inr ⟨d, ll, by simp, fun h => h.tabs h2, .inl ⟨by rw [piecesText, pieceText, h1], h2⟩⟩
      · refine .inr ⟨d, ll, by simp, fun h => ?_, .inr ⟨⟨u, by rw [piecesText, pieceText, h1]⟩, h2⟩⟩
        rcases h2 with ⟨h2, h3⟩ | ⟨h2, h3⟩
        · rcases h.named with h | h
          · exact h h2
          · exact h h3
        · exact h.room h2 h3

/-- What becomes of the help with a given column: printed, if every entry can be; else the error about two tabs, and then some paragraph has two tabs; or
undefined, and then an option has no name, or there is text at a column that is the end of the line. -/
theorem C126_outcome (t : Tree) (hs : ModestSizes t) (width : Nat) (hw : width ≠ 0) (hlt : width < 2 ^ 31) :
    ((∃ text, print (build t) width = .ok text) ↔ ∀ d ll, .entry d ll ∈ t.layout → PrintableEntry width ll d) ∧
    ∀ f, print (build t) width = .error f →
      (f = tabError ∧ ∃ d ∈ t.declared, SomeParagraph d.description fun p => 1 < p.count '\t') ∨
      (∃ u, f = .ub u) ∧ ∃ d ll, .entry d ll ∈ t.layout ∧ (d.shortName = [] ∧ d.longNames = [] ∨
        usedColumns ll = width ∧ SomeParagraph d.description fun p => p ≠ [] ∧ p ≠ ['\t']) := by
  rw [print, if_neg hw, (build_spec width t).1]
  rcases pieces_outcome hlt t.layout (fun d ll h => by
    obtain ⟨h1, md, h2⟩ := t.layout_entry d ll h
    exact ⟨(hs.lengths _ h2).1, hs.descriptions d h1⟩) with ⟨h1, text, h2⟩ | ⟨d, ll, h1, h2, h3⟩
  · refine ⟨⟨fun _ => h1, fun _ => ⟨text, h2⟩⟩, fun f h => ?_⟩
    rw [h2] at h
    cases h
  · refine ⟨⟨fun ⟨text, h⟩ => ?_, fun h => absurd (h d ll h1) h2⟩, fun f h => ?_⟩
    · rcases h3 with ⟨h3, -⟩ | ⟨⟨u, h3⟩, -⟩
      · rw [h3] at h; cases h
      · rw [h3] at h; cases h
    · rcases h3 with ⟨h3, h4⟩ | ⟨⟨u, h3⟩, h4⟩
      · rw [h3] at h; cases h
        exact .inl ⟨rfl, d, (t.layout_entry d ll h1).1, h4⟩
      · rw [h3] at h; cases h
        exact .inr ⟨⟨u, rfl⟩, d, ll, h1, h4⟩

/-! ### Examples -/

/-- Groups with a line length of 20 and a minimal description length of 30: a failed assertion, but without assertions an object whose descriptions begin
at column 24, each paragraph in one line. -/
def narrow : Tree := .mk [] 20 30 (.opt (Test.od "a" Test.unt "one two three four five six") .nil)

example : (∀ o, narrow.build ≠ .ok o) ∧ ModestSizes narrow ∧
    print (build narrow) = .ok (Test.L "  --a                   one two three four five six" ++ ['\n']) := by
  refine ⟨fun o h => ?_, ⟨by decide, by decide⟩, rfl⟩
  cases h

example : LooseColumn narrow 24 := (column_exact narrow (by decide) 24).1 rfl

/-- Five columns more, and the descriptions begin at the end of the line: undefined, unless the description is empty. -/
example : print (build (.mk [] 25 30 (.opt (Test.od "a" Test.unt "one") .nil))) = .error (.ub .formatRange) ∧
    print (build (.mk [] 25 30 (.opt (Test.od "a" Test.unt) .nil))) = .ok (Test.L "  --a " ++ ['\n']) := ⟨rfl, rfl⟩

/-- A tab beyond the first line: a failed assertion, and ignored without assertions. -/
def lateTab : Tree := .mk [] 40 10 (.opt { Test.od "a" Test.unt with description := Test.L "one two three four five" ++ '\t' :: Test.L "six seven" } .nil)

example : (∃ o, lateTab.build = .ok o ∧ ∀ text, o.print 30 ≠ .ok text) ∧
    print (build lateTab) 30 = .ok (Test.L "  --a                         one two " ++ '\n' :: (List.replicate 30 ' ' ++ Test.L "three " ++
      '\n' :: (List.replicate 30 ' ' ++ Test.L "four five" ++ '\n' :: (List.replicate 30 ' ' ++ Test.L "six seven" ++ ['\n'])))) :=
  ⟨⟨_, rfl, fun _ h => nomatch h⟩, rfl⟩

/-- Two tabs are an error in both. -/
example : print (build (.mk [] 40 10 (.opt { Test.od "a" Test.unt with description := ['\t', 'x', '\t'] } .nil))) 30 = .error tabError := rfl

example : ¬ PrintableEntry 24 25 (Test.od "a" Test.unt "one") :=
  fun h => h.room (by decide) ((some_paragraph_iff _ _).2 ⟨Test.L "one", by decide, by decide, by decide⟩)

end PO.Release
