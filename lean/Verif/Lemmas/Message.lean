import Verif.Model.Err
import Verif.Lemmas.Str
import Verif.Lemmas.Order
/-
`replace_token` and `substitute_placeholders`.
-/
namespace PO

theorem findSub_eq_none {s p : Str} : findSub s p = none ↔ ¬ p <:+: s := by
  induction s with
  | nil => by_cases h : p = [] <;> simp [findSub, h]
  | cons x xs ih =>
    simp only [findSub]
    by_cases h : p.isPrefixOf (x :: xs) = true
    · simp only [h, if_true, reduceCtorEq, false_iff, Classical.not_not]
      exact (List.isPrefixOf_iff_prefix.1 h).isInfix
    · rw [if_neg h, Option.map_eq_none_iff, ih, List.infix_cons_iff]
      have : ¬ p <+: x :: xs := fun hp => h (List.isPrefixOf_iff_prefix.2 hp)
      simp [this]

theorem findSub_eq_some {s p : Str} {i : Nat} (h : findSub s p = some i) :
    s = s.take i ++ p ++ s.drop (i + p.length) := by
  induction s generalizing i with
  | nil =>
    simp only [findSub] at h
    split at h
    · subst_vars; simp
    · cases h
  | cons x xs ih =>
    simp only [findSub] at h
    split at h
    · rename_i hp
      cases h
      obtain ⟨t, ht⟩ := List.isPrefixOf_iff_prefix.1 hp
      rw [← ht]; simp
    · simp only [Option.map_eq_some_iff] at h
      obtain ⟨j, hj, rfl⟩ := h
      have := ih hj
      have e : j + 1 + p.length = j + p.length + 1 := by omega
      rw [e, List.take_succ_cons, List.drop_succ_cons, List.cons_append, List.cons_append, ← this]

/-- An occurrence of a pattern without the character `q` does not span a `q`. -/
theorem findSub_append {p : Str} {q : Char} (hp : p ≠ []) (hq : q ∉ p) (b r : Str) :
    findSub (b ++ q :: r) p =
      match findSub b p with
      | some i => some i
      | none => (findSub r p).map (· + (b.length + 1)) := by
  have hcut : ∀ (l : Str), p <+: l ++ q :: r → p <+: l := by
    intro l h
    rcases List.prefix_or_prefix_of_prefix h (List.prefix_append l (q :: r)) with h1 | ⟨t, ht⟩
    · exact h1
    · cases t with
      | nil => simp at ht; subst ht; exact List.prefix_rfl
      | cons c t =>
        subst ht
        rw [List.prefix_append_right_inj, List.cons_prefix_cons] at h
        exact absurd (by simp [h.1]) hq
  induction b with
  | nil =>
    have h0 : ¬ p <+: q :: r := fun h => by
      have := hcut [] h
      exact hp (List.prefix_nil.1 this)
    have h1 : ¬ p.isPrefixOf (q :: r) = true := fun h => h0 (List.isPrefixOf_iff_prefix.1 h)
    have e : findSub (q :: r) p = (findSub r p).map (· + 1) := by rw [findSub, if_neg h1]
    have e0 : findSub [] p = none := by rw [findSub, if_neg hp]
    rw [List.nil_append, e, e0]
    rfl
  | cons x b ih =>
    rw [List.cons_append, findSub, findSub]
    by_cases h : p <+: x :: b
    · have h2 : p <+: x :: (b ++ q :: r) := by
        rw [← List.cons_append]; exact h.trans (List.prefix_append _ _)
      rw [if_pos (List.isPrefixOf_iff_prefix.2 h), if_pos (List.isPrefixOf_iff_prefix.2 h2)]
    · have h2 : ¬ p <+: x :: (b ++ q :: r) := by
        rw [← List.cons_append]; exact fun h' => h (hcut _ h')
      rw [if_neg (fun h' => h (List.isPrefixOf_iff_prefix.1 h')),
        if_neg (fun h' => h2 (List.isPrefixOf_iff_prefix.1 h')), ih]
      cases findSub b p with
      | some i => rfl
      | none =>
        simp only [Option.map_none, Option.map_map]
        congr 1

/-! ### `replace_token` -/

theorem replaceToken_none {f : Nat} {msg src dst : Str} (h : ¬ src <:+: msg) : replaceToken f msg src dst = some msg := by
  unfold replaceToken
  rw [findSub_eq_none.2 h]

/-- If the replacement contains what is replaced, the loop goes on for ever. -/
theorem replaceToken_diverges (f : Nat) (msg src dst : Str) (h1 : src <:+: msg) (h2 : src <:+: dst) :
    replaceToken f msg src dst = none := by
  induction f generalizing msg with
  | zero =>
    unfold replaceToken
    cases h : findSub msg src with
    | none => exact absurd h1 (findSub_eq_none.1 h)
    | some i => rfl
  | succ f ih =>
    unfold replaceToken
    cases h : findSub msg src with
    | none => exact absurd h1 (findSub_eq_none.1 h)
    | some i =>
      apply ih
      obtain ⟨a, b, e⟩ := h2
      exact ⟨msg.take i ++ a, b ++ msg.drop (i + src.length), by rw [← e]; simp⟩

theorem replaceToken_mono {f : Nat} (g : Nat) {msg src dst r : Str} (h : replaceToken f msg src dst = some r) :
    replaceToken (f + g) msg src dst = some r := by
  induction f generalizing msg with
  | zero =>
    unfold replaceToken at h ⊢
    cases hf : findSub msg src with
    | none => rw [hf] at h; exact h
    | some i => simp [hf] at h
  | succ f ih =>
    have e : f + 1 + g = f + g + 1 := by omega
    rw [e]
    unfold replaceToken at h ⊢
    cases hf : findSub msg src with
    | none => rw [hf] at h; exact h
    | some i => rw [hf] at h; exact ih h

theorem replaceToken_skip {src : Str} {q : Char} (hs : src ≠ []) (hq : q ∉ src) (f : Nat) (b r dst : Str)
    (hb : ¬ src <:+: b) :
    replaceToken f (b ++ q :: r) src dst = (replaceToken f r src dst).map fun x => b ++ q :: x := by
  induction f generalizing r with
  | zero =>
    unfold replaceToken
    rw [findSub_append hs hq, findSub_eq_none.2 hb]
    cases findSub r src <;> rfl
  | succ f ih =>
    unfold replaceToken
    rw [findSub_append hs hq, findSub_eq_none.2 hb]
    cases h : findSub r src with
    | none => rfl
    | some i =>
      simp only [Option.map_some]
      rw [← ih]
      congr 1
      have e1 : i + (b.length + 1) = b.length + (i + 1) := by omega
      have e2 : b.length + (i + 1) + src.length = b.length + (i + src.length + 1) := by omega
      rw [e1, e2, List.take_append, List.drop_append]
      simp [List.take_of_length_le, List.drop_of_length_le]

/-- The two sides of a character that does not occur in the pattern are treated separately. -/
theorem replaceToken_append {src : Str} {q : Char} (hs : src ≠ []) (hq : q ∉ src) (f g : Nat) (b r dst b' r' : Str)
    (h1 : replaceToken f b src dst = some b') (h2 : replaceToken g r src dst = some r') (hb' : ¬ src <:+: b') :
    replaceToken (f + g) (b ++ q :: r) src dst = some (b' ++ q :: r') := by
  induction f generalizing b with
  | zero =>
    unfold replaceToken at h1
    cases hf : findSub b src with
    | some i => simp [hf] at h1
    | none =>
      simp only [hf, Option.some.injEq] at h1
      subst h1
      rw [replaceToken_skip hs hq _ _ _ _ hb', Nat.zero_add, h2]; rfl
  | succ f ih =>
    unfold replaceToken at h1
    cases hf : findSub b src with
    | none =>
      simp only [hf, Option.some.injEq] at h1
      subst h1
      rw [replaceToken_skip hs hq _ _ _ _ hb', Nat.add_comm, replaceToken_mono _ h2]; rfl
    | some i =>
      simp only [hf] at h1
      have e : f + 1 + g = f + g + 1 := by omega
      rw [e]
      unfold replaceToken
      rw [findSub_append hs hq, hf]
      simp only
      have hi : i + src.length ≤ b.length := by
        have := congrArg List.length (findSub_eq_some hf)
        have hs' := List.length_pos_iff.2 hs
        simp only [List.length_append, List.length_take, List.length_drop] at this
        omega
      have := ih _ h1
      rw [← this]
      congr 1
      rw [List.take_append_of_le_length (by omega), List.drop_append_of_le_length (by omega)]
      simp

/-! ### Texts with holes -/

/-- `'%' k '%'`. -/
def placeholder (k : Str) : Str := '%' :: k ++ ['%']

/-- A block of a template, between two quotation marks: plain text, or a placeholder followed by text. -/
inductive Blk
  | text (s : Str)
  | hole (k tail : Str)

def Blk.render : Blk → Str
  | .text s => s
  | .hole k tail => placeholder k ++ tail

/-- The blocks, each followed by a quotation mark, and then `last`. -/
def catBlks (last : Str) : List Blk → Str
  | [] => last
  | b :: bs => b.render ++ '\'' :: catBlks last bs

/-- A substitution with these entries, done in order, fills exactly the hole. -/
def Blk.Fillable : SMap Str → Blk → Prop
  | [], .text _ => True
  | (k, _) :: ss, .text s => ¬ placeholder k <:+: s ∧ Blk.Fillable ss (.text s)
  | [], .hole _ _ => False
  | (k, v) :: ss, .hole k' tail =>
    if k = k' then ¬ placeholder k <:+: v ++ tail ∧ Blk.Fillable ss (.text (v ++ tail))
    else ¬ placeholder k <:+: placeholder k' ++ tail ∧ Blk.Fillable ss (.hole k' tail)

/-- The filled block. -/
def Blk.fill (ss : SMap Str) : Blk → Str
  | .text s => s
  | .hole k tail => (SMap.get? ss k).getD [] ++ tail

/-- One step of the filling. -/
def Blk.step (k v : Str) : Blk → Blk
  | .text s => .text s
  | .hole k' tail => if k = k' then .text (v ++ tail) else .hole k' tail

theorem Blk.fillable_step {k v : Str} {ss : SMap Str} {b : Blk} (h : b.Fillable ((k, v) :: ss)) :
    (b.step k v).Fillable ss ∧ ¬ placeholder k <:+: (b.step k v).render := by
  cases b with
  | text s => exact ⟨h.2, h.1⟩
  | hole k' tail =>
    simp only [Blk.Fillable] at h
    simp only [Blk.step]
    by_cases e : k = k'
    · rw [if_pos e] at h ⊢
      exact ⟨h.2, h.1⟩
    · rw [if_neg e] at h ⊢
      exact ⟨h.2, h.1⟩

theorem Blk.fill_step (k v : Str) (ss : SMap Str) (b : Blk) : (b.step k v).fill ss = b.fill ((k, v) :: ss) := by
  cases b with
  | text s => rfl
  | hole k' tail =>
    simp only [Blk.step, Blk.fill, SMap.get?]
    by_cases e : k = k'
    · simp [e]
    · simp [e]

theorem Blk.replace {k v : Str} {ss : SMap Str} {b : Blk} (h : b.Fillable ((k, v) :: ss)) :
    replaceToken 1 b.render (placeholder k) v = some (b.step k v).render := by
  have hn := (Blk.fillable_step h).2
  cases b with
  | text s => exact replaceToken_none hn
  | hole k' tail =>
    simp only [Blk.step] at hn ⊢
    by_cases e : k = k'
    · rw [if_pos e] at hn ⊢
      subst e
      have h0 : findSub (placeholder k ++ tail) (placeholder k) = some 0 :=
        (findSub_eq_zero _ _).2 (List.prefix_append _ _)
      simp only [Blk.render] at hn ⊢
      unfold replaceToken
      rw [h0]
      simp only [List.take_zero, List.nil_append, Nat.zero_add, List.drop_left]
      exact replaceToken_none hn
    · rw [if_neg e] at hn ⊢
      exact replaceToken_none hn

theorem placeholder_ne (k : Str) : placeholder k ≠ [] := by simp [placeholder]

theorem not_infix_of_not_mem {c : Char} {p s : Str} (hp : c ∈ p) (hs : c ∉ s) : ¬ p <:+: s :=
  fun h => hs (h.subset hp)

theorem replaceToken_blocks {k v : Str} (hq : '\'' ∉ k) {ss : SMap Str} (last : Str) (hl : '%' ∉ last) (bs : List Blk)
    (h : ∀ b ∈ bs, b.Fillable ((k, v) :: ss)) :
    replaceToken bs.length (catBlks last bs) (placeholder k) v = some (catBlks last (bs.map (Blk.step k v))) := by
  have hq' : '\'' ∉ placeholder k := by simp [placeholder, hq]
  induction bs with
  | nil => exact replaceToken_none (not_infix_of_not_mem (c := '%') (by simp [placeholder]) hl)
  | cons b bs ih =>
    have hb := h b (by simp)
    have := replaceToken_append (placeholder_ne k) hq' 1 bs.length _ _ v _ _ (Blk.replace hb)
      (ih fun b hb => h b (by simp [hb])) (Blk.fillable_step hb).2
    rw [List.length_cons, Nat.add_comm]
    exact this

/-- `substitute_placeholders`, second loop: every hole is filled with its value. -/
theorem applySubsts_blocks (f : Nat) (ss : SMap Str) (hk : ∀ p ∈ ss, '\'' ∉ p.1) (last : Str) (hl : '%' ∉ last)
    (bs : List Blk) (hf : bs.length ≤ f) (h : ∀ b ∈ bs, b.Fillable ss) :
    applySubsts f ss (catBlks last bs) = some (catBlks last (bs.map fun b => .text (b.fill ss))) := by
  induction ss generalizing bs with
  | nil =>
    rw [applySubsts]
    have : bs.map (fun b => Blk.text (b.fill [])) = bs := by
      rw [List.map_congr_left (g := id), List.map_id]
      intro b hb
      cases b with
      | text s => rfl
      | hole k t => exact absurd (h _ hb) (by simp [Blk.Fillable])
    rw [this]
  | cons p ss ih =>
    obtain ⟨k, v⟩ := p
    rw [applySubsts]
    have hr := replaceToken_blocks (hk (k, v) (by simp)) last hl bs h
    have hr' := replaceToken_mono (f - bs.length) hr
    rw [Nat.add_sub_cancel' hf] at hr'
    have hp : '%' :: k ++ ['%'] = placeholder k := rfl
    rw [hp, hr']
    simp only
    rw [ih (fun p hp => hk p (by simp [hp])) (bs.map (Blk.step k v)) (by simpa using hf)
      (by
        intro b hb
        obtain ⟨b0, hb0, rfl⟩ := List.mem_map.1 hb
        exact (Blk.fillable_step (h b0 hb0)).1)]
    rw [List.map_map]
    congr 2
    apply List.map_congr_left
    intro b _
    simp only [Function.comp, Blk.fill_step]

/-! ### Defaults -/

theorem applyDefaults_congr (f : Nat) (a b : SMap Str) (ds : List (Str × Str × Str)) (msg : Str)
    (h : ∀ d ∈ ds, (SMap.get? a d.1).getD [] = [] ↔ (SMap.get? b d.1).getD [] = []) :
    applyDefaults f a ds msg = applyDefaults f b ds msg := by
  induction ds generalizing msg with
  | nil => rfl
  | cons d ds ih =>
    obtain ⟨k, src, dst⟩ := d
    have ih' := fun m => ih m fun d hd => h d (by simp [hd])
    have hk := h (k, src, dst) (by simp)
    simp only at hk
    rw [applyDefaults, applyDefaults]
    by_cases e : (SMap.get? a k).getD [] = []
    · rw [if_pos e, if_pos (hk.1 e)]
      cases replaceToken f msg src dst with
      | none => rfl
      | some m => exact ih' m
    · rw [if_neg e, if_neg (fun h' => e (hk.2 h')), ih']

theorem applyDefaults_mono {f : Nat} (g : Nat) (a : SMap Str) (ds : List (Str × Str × Str)) (msg r : Str)
    (h : applyDefaults f a ds msg = some r) : applyDefaults (f + g) a ds msg = some r := by
  induction ds generalizing msg with
  | nil => exact h
  | cons d ds ih =>
    obtain ⟨k, src, dst⟩ := d
    rw [applyDefaults] at h ⊢
    by_cases e : (SMap.get? a k).getD [] = []
    · rw [if_pos e] at h ⊢
      cases hr : replaceToken f msg src dst with
      | none => simp [hr] at h
      | some m =>
        rw [hr] at h
        rw [replaceToken_mono g hr]
        exact ih m h
    · rw [if_neg e] at h ⊢
      exact ih msg h

end PO
