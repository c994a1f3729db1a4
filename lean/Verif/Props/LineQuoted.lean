import Verif.Spec.LineFault
import Verif.Props.MessageLoops
/-
C95 with percent signs: for which lines and names of a configuration file the message is made, and for which it quotes them.
-/
namespace PO
open Spec

theorem applySubsts_empties (ss : SMap Str) (hss : ∀ p ∈ ss, p.2 = []) (msg : Str) (f : Nat) (hf : msg.length ≤ f) :
    ∃ r, applySubsts f ss msg = some r ∧ r.length ≤ msg.length ∧ (r = msg ↔ ∀ p ∈ ss, ¬ placeholder p.1 <:+: msg) := by
  induction ss generalizing msg with
  | nil => exact ⟨msg, rfl, Nat.le_refl _, by simp⟩
  | cons p ss ih =>
    obtain ⟨k, v⟩ := p
    obtain rfl : v = [] := hss (k, v) (by simp)
    obtain ⟨m, hr, hlen, hlt⟩ := replaceToken_shrinks (placeholder k) [] (by simp [placeholder]) msg f hf
    obtain ⟨r, h1, h2, h3⟩ := ih (fun p h => hss p (by simp [h])) m (by omega)
    refine ⟨r, ?_, by omega, ?_⟩
    · rw [applySubsts, show '%' :: k ++ ['%'] = placeholder k from rfl, hr]
      exact h1
    · by_cases hk : placeholder k <:+: msg
      · have := hlt hk
        constructor
        · rintro rfl; omega
        · intro h; exact absurd hk (h (k, []) (by simp))
      · rw [replaceToken_none hk] at hr
        cases hr
        rw [h3]
        simp [hk]

/-- **C95, exactly, lines:** the message about a line quotes it as it is if and only if it has no placeholder in it. -/
theorem C95_line_iff (s : Str) :
    (∃ f, (badLine s).what f = some (Fault.line s).message) ↔ (Fault.line s).Harmless ∧ (Fault.line s).Plain := by
  have hq : (Fault.line s).message = str% "the options configuration file contains an invalid line " ++ '\'' :: (s ++ ['\'']) := by simp [Fault.message]
  have hin : ∀ k : Str, '\'' ∉ k → (placeholder k <:+: (Fault.line s).message ↔ placeholder k <:+: s) := by
    intro k hk
    rw [hq]
    exact quoted_infix hk (by simp)
  have hall : (∀ p ∈ ([(kOption, []), (kToken, []), (kPrefix, [])] : SMap Str), ¬ placeholder p.1 <:+: (Fault.line s).message) ↔ (Fault.line s).Plain := by
    simp only [List.mem_cons, List.not_mem_nil, or_false, forall_eq_or_imp, forall_eq, hin kOption (by decide), hin kToken (by decide), hin kPrefix (by decide)]
    rfl
  have hw : (Fault.line s).Harmless → ∀ f, (Fault.line s).message.length ≤ f →
      (badLine s).what f = applySubsts f [(kOption, []), (kToken, []), (kPrefix, [])] (Fault.line s).message := by
    intro hc f hf
    obtain ⟨g, rfl⟩ : ∃ g, f = g + 1 := ⟨f - 1, by rw [hq] at hf; simp at hf; omega⟩
    rw [badLine_subst, applySubsts, show '%' :: kLine ++ ['%'] = placeholder kLine from rfl, badLine_filled s hc]
    rfl
  constructor
  · rintro ⟨f, hf⟩
    have hc : (Fault.line s).Harmless := (C95_line_returns s).1 ⟨f, _, hf⟩
    refine ⟨hc, ?_⟩
    have hf' := what_mono _ (by nofun) (Fault.line s).message.length hf
    rw [hw hc _ (by omega)] at hf'
    obtain ⟨r, h1, -, h3⟩ := applySubsts_empties [(kOption, []), (kToken, []), (kPrefix, [])] (by simp) (Fault.line s).message (f + (Fault.line s).message.length) (by omega)
    rw [h1] at hf'
    exact hall.1 (h3.1 (Option.some.inj hf'))
  · rintro ⟨hc, hp⟩
    obtain ⟨r, h1, -, h3⟩ := applySubsts_empties [(kOption, []), (kToken, []), (kPrefix, [])] (by simp) (Fault.line s).message (Fault.line s).message.length (Nat.le_refl _)
    exact ⟨_, by rw [hw hc _ (Nat.le_refl _), h1, h3.2 (hall.2 hp)]⟩

/-- The same for names, but for those with `%option%` in them. -/
theorem name_iff (n : Str) (ho : (Fault.name n).Covered) :
    ((∃ f m, (unknownName n).what f = some m) ↔ (Fault.name n).Harmless) ∧
    ((∃ f, (unknownName n).what f = some (Fault.name n).message) ↔ (Fault.name n).Harmless ∧ (Fault.name n).Plain) := by
  refine ⟨C47_unknown_iff n 0 (.inl rfl) ho, ?_⟩
  by_cases h0 : n = []
  · subst h0
    refine ⟨fun _ => by simp [Fault.Harmless, Fault.Plain], fun _ => ⟨5, ?_⟩⟩
    rw [unknownName_what [] clean_nil 5 (Nat.le_refl _)]
    rfl
  · have := C48_unknown_iff n 0 (.inl rfl) h0 ho
    simp only [Fault.message, if_neg h0]
    rw [show unknownName n = (OptErr.mk' .unknownOption).addContext [] n 0 from rfl, this]
    simp only [Fault.Harmless, Fault.Plain, and_assoc]

/-- What is thrown. -/
def faultErr : Fault → OptErr
  | .line s => badLine s
  | .name n => unknownName n

theorem bad_first {desc : List OptionDesc} {au : Bool} {pre : Str} {ls : List Str} {e : OptErr} (h : BadLines desc au pre ls (.opt e)) :
    ∃ x, FaultAt desc au pre ls x ∧ e = faultErr x := by
  generalize hf : Fail.opt e = f at h
  induction h with
  | blank h t ih =>
    obtain ⟨x, h1, h2⟩ := ih hf
    exact ⟨x, .blank h h1, h2⟩
  | header s h hs t ih =>
    obtain ⟨x, h1, h2⟩ := ih hf
    exact ⟨x, .header s h hs h1, h2⟩
  | item s n v h hi ha t ih =>
    obtain ⟨x, h1, h2⟩ := ih hf
    exact ⟨x, .item s n v h hi ha h1, h2⟩
  | emptyHeader => cases hf
  | unknown s n v h hi ha hu => cases hf; exact ⟨_, .unknown s n v h hi ha hu, rfl⟩
  | neither s h h0 hh he => cases hf; exact ⟨_, .neither s h h0 hh he, rfl⟩

theorem first_bad {desc : List OptionDesc} {au : Bool} {pre : Str} {ls : List Str} {x : Fault} (h : FaultAt desc au pre ls x) :
    BadLines desc au pre ls (.opt (faultErr x)) := by
  induction h with
  | blank h t ih => exact .blank h ih
  | header s h hs t ih => exact .header s h hs ih
  | item s n v h hi ha t ih => exact .item s n v h hi ha ih
  | unknown s n v h hi ha hu => exact .unknown s n v h hi ha hu
  | neither s h h0 hh he => exact .neither s h h0 hh he

theorem fault_iff (x : Fault) (hx : x.Covered) (e : OptErr) (he : e = faultErr x) :
    (Returns e ↔ x.Harmless) ∧ ((∃ f, e.what f = some x.message) ↔ x.Harmless ∧ x.Plain) := by
  subst he
  cases x with
  | line s => exact ⟨C95_line_returns s, C95_line_iff s⟩
  | name n => exact name_iff n hx

/-- **C95, exactly, configuration files:** if a file is refused with an exception about an option or a line, there is a first line or name at fault; the message is
made if and only if that does not contain the placeholders which it is put in for, and quotes it if and only if it contains none of the other ones either. -/
theorem C95_file_iff (text : Str) (desc : List OptionDesc) (au : Bool) (e : OptErr) (h : parseConfigFile text desc au = .error (.opt e)) :
    ∃ ls last x, text = ls.flatMap (· ++ ['\n']) ++ last ∧ (∀ l ∈ ls, '\n' ∉ l) ∧ '\n' ∉ last ∧ FaultAt desc au [] (ls ++ [last]) x ∧
      (x.Covered → (Returns e ↔ x.Harmless) ∧ ((∃ f, e.what f = some x.message) ↔ x.Harmless ∧ x.Plain)) := by
  rw [C64_refused] at h
  generalize hf : Fail.opt e = f at h
  cases h with
  | short => cases hf
  | overlap => cases hf
  | line ls last hne ho et hls hlast h =>
    subst hf
    obtain ⟨x, h1, h2⟩ := bad_first h
    exact ⟨ls, last, x, et, hls, hlast, h1, fun hx => fault_iff x hx e h2⟩

/-- The other way round: a file with something at fault is refused. -/
theorem C95_fault_iff (ls : List Str) (last : Str) (desc : List OptionDesc) (au : Bool) (hls : ∀ l ∈ ls, '\n' ∉ l) (hlast : '\n' ∉ last)
    (hne : ∀ d ∈ desc, d.firstLong ≠ []) (ho : ¬ Overlap desc) (x : Fault) (h : FaultAt desc au [] (ls ++ [last]) x) :
    ∃ e, parseConfigFile (ls.flatMap (· ++ ['\n']) ++ last) desc au = .error (.opt e) ∧
      (x.Covered → (Returns e ↔ x.Harmless) ∧ ((∃ f, e.what f = some x.message) ↔ x.Harmless ∧ x.Plain)) :=
  ⟨_, (C64_refused _ _ _ _).2 (.line ls last hne ho rfl hls hlast (first_bad h)), fun hx => fault_iff x hx _ rfl⟩

/-- A line with a percent sign and no placeholder is quoted; one with `%prefix%` is not. -/
example : (∃ f, (badLine (str% "100% sure")).what f = some (str% "the options configuration file contains an invalid line '100% sure'")) ∧
    ¬ ∃ f, (badLine (str% "%prefix%")).what f = some (str% "the options configuration file contains an invalid line '%prefix%'") := by
  refine ⟨(C95_line_iff _).2 ⟨not_infix_dec (by decide), not_infix_dec (by decide), not_infix_dec (by decide), not_infix_dec (by decide)⟩, fun h => ?_⟩
  exact ((C95_line_iff _).1 h).2.2.2 (List.infix_refl _)

/-- Why names with `%option%` are not covered: this one has a placeholder in it only when `%option%` is removed, and is quoted all the same. -/
example : (unknownName (str% "%original%option%_token%")).what 5 = some (str% "unrecognised option '%original%option%_token%'") := by decide

end PO
