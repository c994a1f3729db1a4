import Verif.Props.FileCut
import Verif.Props.WideConfig
/-
C161: wide configuration files that are cut off.
-/
namespace PO
open Spec FileCut

namespace WideCut

theorem ends_of_newline (t : Str) : EndsWith (t ++ ['\n']) [] := by
  obtain ⟨ls, last, h1, h2, rfl⟩ := exists_lines t
  refine ⟨ls ++ [last], by simp [unlines], ?_, by simp⟩
  intro l hl
  rcases List.mem_append.1 hl with hl | hl
  · exact h1 l hl
  · rw [List.mem_singleton.1 hl]; exact h2

theorem ends_wide {a : WStr} (ha : a = [] ∨ ∃ a', a = a' ++ [10]) : EndsWith (utf8Text a) [] := by
  rcases ha with rfl | ⟨a', rfl⟩
  · exact ⟨[], rfl, by simp, by simp⟩
  · rw [utf8Text_append]
    exact ends_of_newline _

theorem mapOk_append {α β : Type} (f : α → Except Fail β) (xs ys : List α) {r : List β} (h : mapOk f (xs ++ ys) = .ok r) :
    ∃ r1 r2, mapOk f xs = .ok r1 ∧ r = r1 ++ r2 := by
  induction xs generalizing r with
  | nil => exact ⟨[], r, rfl, rfl⟩
  | cons x xs ih =>
    rw [List.cons_append, mapOk] at h
    rw [mapOk]
    cases hx : f x with
    | error e => rw [hx] at h; cases h
    | ok y =>
      rw [hx] at h
      cases hr : mapOk f (xs ++ ys) with
      | error e => rw [hr] at h; cases h
      | ok r' =>
        rw [hr] at h
        cases h
        obtain ⟨r1, r2, h1, rfl⟩ := ih hr
        rw [h1]
        exact ⟨y :: r1, r2, rfl, rfl⟩

theorem wparse_toWide {env : Env} {text : WStr} {desc : List OptionDesc} {au : Bool} {wp : WParsed} (h : wparseConfigFile env text desc au = .ok wp) :
    mapOk (wopt env) wp.utf8.options = .ok wp.options := by
  unfold wparseConfigFile at h
  split at h
  · cases h
  · split at h
    · cases h
    · split at h
      · cases h
      · unfold Parsed.toWide at h
        dsimp only at h
        split at h
        · cases h
        · rename_i hm
          cases h
          exact hm

end WideCut
open WideCut

/-- **C161, wide files, refused.** What is wrong with whole lines stays wrong, in the same way, whatever comes after them. -/
theorem C161_wide_refused (env : Env) (desc : List OptionDesc) (au : Bool) (a b : WStr) (hw : ∀ x ∈ a ++ b, x < 2 ^ 31) (ha : a = [] ∨ ∃ a', a = a' ++ [10]) (f : Fail)
    (h : wparseConfigFile env.withUtf8 a desc au = .error f) : wparseConfigFile env.withUtf8 (a ++ b) desc au = .error f := by
  obtain ⟨ta, e1, r1, k1⟩ := C73_wide_config env a (fun x hx => hw x (List.mem_append_left _ hx)) desc au
  obtain ⟨t, e2, r2, k2⟩ := C73_wide_config env (a ++ b) hw desc au
  rw [withUtf8_to] at e1 e2
  cases e1; cases e2
  cases hp : parseConfigFile (utf8Text a) desc au with
  | ok p =>
    obtain ⟨wp, h1, -⟩ := k1 p hp
    rw [h1] at h; cases h
  | error g =>
    rw [r1 g hp] at h; cases h
    apply r2
    rw [utf8Text_append]
    exact C161_refused desc au _ _ (ends_wide ha) _ hp

/-- **C161, wide files.** If a wide file is accepted, so is each beginning of it that ends with a line end, with the first of its options. -/
theorem C161_wide (env : Env) (desc : List OptionDesc) (au : Bool) (a b : WStr) (hw : ∀ x ∈ a ++ b, x < 2 ^ 31) (ha : a = [] ∨ ∃ a', a = a' ++ [10]) (wp : WParsed)
    (h : wparseConfigFile env.withUtf8 (a ++ b) desc au = .ok wp) :
    ∃ wpa os, wparseConfigFile env.withUtf8 a desc au = .ok wpa ∧ wp.options = wpa.options ++ os := by
  obtain ⟨ta, e1, r1, k1⟩ := C73_wide_config env a (fun x hx => hw x (List.mem_append_left _ hx)) desc au
  obtain ⟨t, e2, r2, k2⟩ := C73_wide_config env (a ++ b) hw desc au
  rw [withUtf8_to] at e1 e2
  cases e1; cases e2
  cases hp : parseConfigFile (utf8Text (a ++ b)) desc au with
  | error g => rw [r2 g hp] at h; cases h
  | ok p =>
    obtain ⟨wp', h1, h2, -⟩ := k2 p hp
    rw [h] at h1; cases h1
    rw [utf8Text_append] at hp
    obtain ⟨pa, os, h3, -, h4⟩ := C161_lines desc au _ _ (ends_wide ha) p hp
    obtain ⟨wpa, h5, h6, -⟩ := k1 pa h3
    have m1 := wparse_toWide h
    have m2 := wparse_toWide h5
    rw [h2, h4] at m1
    rw [h6] at m2
    obtain ⟨q1, q2, m3, m4⟩ := mapOk_append _ _ _ m1
    rw [m2] at m3; cases m3
    exact ⟨wpa, q2, h5, m4⟩

/-- Each beginning of a line, with a line end after it, where the option has a wide value. -/
example : ∃ wpa os, wparseConfigFile Test.env.withUtf8 [120, 61, 8364, 10] [] true = .ok wpa ∧
    [(str% "x", [[8364]]), (str% "y", [[49]])] = wpa.options.map (fun o => (o.stringKey, o.value)) ++ os := by
  cases h : wparseConfigFile Test.env.withUtf8 ([120, 61, 8364, 10] ++ [121, 61, 49]) [] true with
  | error f =>
    have : (wparseConfigFile Test.env.withUtf8 ([120, 61, 8364, 10] ++ [121, 61, 49]) [] true).toOption.isSome = true := by decide +kernel
    rw [h] at this; cases this
  | ok wp =>
    obtain ⟨wpa, os, h1, h2⟩ := C161_wide Test.env [] true [120, 61, 8364, 10] [121, 61, 49] (by decide) (.inr ⟨[120, 61, 8364], rfl⟩) wp h
    refine ⟨wpa, os.map fun o => (o.stringKey, o.value), h1, ?_⟩
    rw [← List.map_append, ← h2]
    have : (wparseConfigFile Test.env.withUtf8 ([120, 61, 8364, 10] ++ [121, 61, 49]) [] true).toOption.map (fun wp => wp.options.map fun o => (o.stringKey, o.value)) =
      some [(str% "x", [[8364]]), (str% "y", [[49]])] := by decide +kernel
    rw [h] at this
    exact (Option.some.inj this).symm

end PO
