import Verif.Spec.FileExplain
import Verif.Props.Messages
import Verif.Props.ConfigGrammar
import Verif.Props.Notify
/-
C95: what the message of a refused configuration file, or of a missing required option, says.
-/
namespace PO
open Spec

/-- The exception about an unknown name. -/
def unknownName (name : Str) : OptErr := { cls := .unknownOption, style := 0, subst := [(str% "option", []), (str% "original_token", name)] }
/-- The exception about a line. -/
def badLine (s : Str) : OptErr := { cls := .configSyntax .unrecognizedLine, style := 0, subst := [(str% "invalid_line", s), (str% "option", []), (str% "original_token", [])] }

theorem unknownName_what (name : Str) (h : Clean name) (f : Nat) (hf : 5 ≤ f) :
    (unknownName name).what f = some (if name = [] then str% "unrecognised option" else str% "unrecognised option '" ++ name ++ str% "'") := by
  have hb : Built (unknownName name) := .mk .unknownOption [] name 0
  obtain ⟨nm, hn, hw⟩ := C48_verbatim_partial _ hb (.inl rfl) nofun (by rintro (h | h) <;> cases h) clean_nil h (by simp [unknownName, OptErr.substD, SMap.get?, placeholder]) clean_nil
  have : nm = name := by
    have : (unknownName name).canonicalName = some name := rfl
    rw [this] at hn; exact (Option.some.inj hn).symm
  subst this
  rw [hw f hf]
  show some (str% "unrecognised " ++ optionText nm) = _
  unfold optionText
  split <;> rfl

theorem badLine_what (s : Str) (h : Clean s) (f : Nat) (hf : 5 ≤ f) :
    (badLine s).what f = some (str% "the options configuration file contains an invalid line '" ++ s ++ str% "'") := by
  have hb : Built (badLine s) := .line _ s (.mk (.configSyntax .unrecognizedLine) [] [] 0)
  obtain ⟨nm, hn, hw⟩ := C48_verbatim_partial _ hb (.inl rfl) nofun (fun _ => rfl) clean_nil clean_nil (by simp [badLine, OptErr.substD, SMap.get?, placeholder]) h
  rw [hw f hf]
  rfl

theorem required_what (name : Str) (h : Clean name) (f : Nat) (hf : 5 ≤ f) :
    (OptErr.mk' .requiredOption [] name).what f = some (if name = [] then str% "the option is required but missing" else str% "the option '" ++ name ++ str% "' is required but missing") := by
  obtain ⟨nm, hn, hw⟩ := C48_verbatim_partial _ (.mk .requiredOption [] name 0) (.inl rfl) nofun (by rintro (h | h) <;> cases h) clean_nil h (by rw [show (OptErr.mk' .requiredOption [] name).substD (str% "value") = [] from rfl]; simp [placeholder]) clean_nil
  have : nm = name := by
    have : (OptErr.mk' .requiredOption [] name).canonicalName = some name := rfl
    rw [this] at hn; exact (Option.some.inj hn).symm
  subst this
  rw [hw f hf]
  show some (str% "the " ++ optionText nm ++ str% " is required but missing") = _
  unfold optionText
  split <;> simp

theorem says_mem {l s : Str} (h : Says l s) : ∀ c ∈ s, c ∈ l := by
  obtain ⟨t, cm, rfl, -, -, a, b, rfl, -⟩ := h
  intro c hc; simp [hc]

theorem item_mem {s n v : Str} (h : ConfigItem s n v) : ∀ c ∈ n, c ∈ s := by
  obtain ⟨a, b, rfl, -, ⟨p, q, rfl, -⟩, -⟩ := h.split
  intro c hc; simp [hc]

theorem sectionPrefix_np {s : Str} (h : '%' ∉ s) : '%' ∉ sectionPrefix s := by
  unfold sectionPrefix
  split <;> simp_all

theorem np_clean' {s : Str} (h : '%' ∉ s) : Clean s := fun _ _ => placeholder_noPercent h

theorem complains_of {desc : List OptionDesc} {au : Bool} {pre : Str} {ls : List Str} {e : OptErr} (h : BadLines desc au pre ls (.opt e))
    (hp : '%' ∉ pre) (hl : ∀ l ∈ ls, '%' ∉ l) : ∃ m, Complains desc au pre ls m ∧ ∀ f, 5 ≤ f → e.what f = some m := by
  generalize hf : Fail.opt e = f at h
  induction h with
  | blank h t ih =>
    obtain ⟨m, h1, h2⟩ := ih hp (fun l hl' => hl l (by simp [hl'])) hf
    exact ⟨m, .blank h h1, h2⟩
  | header s h hs t ih =>
    obtain ⟨m, h1, h2⟩ := ih (sectionPrefix_np fun hc => hl _ (by simp) (says_mem h _ (by simp [hc]))) (fun l hl' => hl l (by simp [hl'])) hf
    exact ⟨m, .header s h hs h1, h2⟩
  | item s n v h hi ha t ih =>
    obtain ⟨m, h1, h2⟩ := ih hp (fun l hl' => hl l (by simp [hl'])) hf
    exact ⟨m, .item s n v h hi ha h1, h2⟩
  | emptyHeader => cases hf
  | unknown s n v h hi ha hu =>
    cases hf
    refine ⟨_, .unknown s n v h hi ha hu, unknownName_what _ (np_clean' ?_)⟩
    rw [List.mem_append]
    rintro (hc | hc)
    · exact hp hc
    · exact hl _ (by simp) (says_mem h _ (item_mem hi _ hc))
  | neither s h h0 hh he =>
    cases hf
    exact ⟨_, .neither s h h0 hh he, badLine_what _ (np_clean' fun hc => hl _ (by simp) (says_mem h _ hc))⟩

theorem bad_of_complains {desc : List OptionDesc} {au : Bool} {pre : Str} {ls : List Str} {m : Str} (h : Complains desc au pre ls m)
    (hp : '%' ∉ pre) (hl : ∀ l ∈ ls, '%' ∉ l) : ∃ e, BadLines desc au pre ls (.opt e) ∧ ∀ f, 5 ≤ f → e.what f = some m := by
  induction h with
  | blank h t ih =>
    obtain ⟨e, h1, h2⟩ := ih hp (fun l hl' => hl l (by simp [hl']))
    exact ⟨e, .blank h h1, h2⟩
  | header s h hs t ih =>
    obtain ⟨e, h1, h2⟩ := ih (sectionPrefix_np fun hc => hl _ (by simp) (says_mem h _ (by simp [hc]))) (fun l hl' => hl l (by simp [hl']))
    exact ⟨e, .header s h hs h1, h2⟩
  | item s n v h hi ha t ih =>
    obtain ⟨e, h1, h2⟩ := ih hp (fun l hl' => hl l (by simp [hl']))
    exact ⟨e, .item s n v h hi ha h1, h2⟩
  | unknown s n v h hi ha hu =>
    refine ⟨_, .unknown s n v h hi ha hu, unknownName_what _ (np_clean' ?_)⟩
    rw [List.mem_append]
    rintro (hc | hc)
    · exact hp hc
    · exact hl _ (by simp) (says_mem h _ (item_mem hi _ hc))
  | neither s h h0 hh he => exact ⟨_, .neither s h h0 hh he, badLine_what _ (np_clean' fun hc => hl _ (by simp) (says_mem h _ hc))⟩

theorem lines_np {ls : List Str} {last : Str} (h : '%' ∉ ls.flatMap (· ++ ['\n']) ++ last) : ∀ l ∈ ls ++ [last], '%' ∉ l := by
  intro l hl hc
  rw [List.mem_append] at hl
  apply h
  rcases hl with hl | hl
  · exact List.mem_append_left _ (List.mem_flatMap.2 ⟨l, hl, by simp [hc]⟩)
  · simp at hl; subst hl; simp [hc]

/-- **C95 (partial), the message of a refused configuration file.** If a text without percent signs is refused with an
exception about an option or a line, its `what()` is the message about the first line at fault. -/
theorem C95_file_partial (text : Str) (desc : List OptionDesc) (au : Bool) (hp : '%' ∉ text) (e : OptErr) (h : parseConfigFile text desc au = .error (.opt e)) :
    ∃ ls last m, text = ls.flatMap (· ++ ['\n']) ++ last ∧ (∀ l ∈ ls, '\n' ∉ l) ∧ '\n' ∉ last ∧ Complains desc au [] (ls ++ [last]) m ∧
      ∀ f, 5 ≤ f → e.what f = some m := by
  rw [C64_refused] at h
  generalize hf : Fail.opt e = f at h
  cases h with
  | short => cases hf
  | overlap => cases hf
  | line ls last hne ho et hls hlast h =>
    subst hf
    obtain ⟨m, h1, h2⟩ := complains_of h (by simp) (lines_np (et ▸ hp))
    exact ⟨ls, last, m, et, hls, hlast, h1, h2⟩

/-- **C95 (partial), the other way round.** Where the first line at fault calls for a message, the file is refused with it. -/
theorem C95_fault_partial (ls : List Str) (last : Str) (desc : List OptionDesc) (au : Bool) (hp : '%' ∉ ls.flatMap (· ++ ['\n']) ++ last)
    (hls : ∀ l ∈ ls, '\n' ∉ l) (hlast : '\n' ∉ last) (hne : ∀ d ∈ desc, d.firstLong ≠ []) (ho : ¬ Overlap desc) (m : Str)
    (h : Complains desc au [] (ls ++ [last]) m) :
    ∃ e, parseConfigFile (ls.flatMap (· ++ ['\n']) ++ last) desc au = .error (.opt e) ∧ ∀ f, 5 ≤ f → e.what f = some m := by
  obtain ⟨e, h1, h2⟩ := bad_of_complains h (by simp) (lines_np hp)
  exact ⟨e, (C64_refused _ _ _ _).2 (.line ls last hne ho rfl hls hlast h1), h2⟩

/-! ### Lines with percent signs -/

theorem replaceToken_nil (src : Str) (hs : src ≠ []) (msg : Str) : ∀ f, msg.length ≤ f → ∃ r, replaceToken f msg src [] = some r ∧ r.length ≤ msg.length := by
  intro f
  induction f generalizing msg with
  | zero =>
    intro hf
    have : msg = [] := List.length_eq_zero_iff.1 (by omega)
    subst this
    exact ⟨_, replaceToken_none (by simpa using hs), Nat.le_refl _⟩
  | succ f ih =>
    intro hf
    cases h : findSub msg src with
    | none => exact ⟨_, replaceToken_none (findSub_eq_none.1 h), Nat.le_refl _⟩
    | some i =>
      have he := findSub_eq_some h
      have hl : msg.length = (msg.take i).length + src.length + (msg.drop (i + src.length)).length := by
        conv => lhs; rw [he]
        simp only [List.length_append]
      have hpos : 0 < src.length := List.length_pos_iff.2 hs
      rw [replaceToken, h]
      dsimp only
      obtain ⟨r, h1, h2⟩ := ih (msg.take i ++ [] ++ msg.drop (i + src.length)) (by simp only [List.length_append, List.length_nil] at hl ⊢; omega)
      exact ⟨r, h1, by simp only [List.length_append, List.length_nil] at h2 hl; omega⟩

theorem badLine_subst (s : Str) (f : Nat) :
    (badLine s).what f = applySubsts f ((kLine, s) :: [(kOption, []), (kToken, []), (kPrefix, [])]) (SyntaxKind.template .unrecognizedLine) := by
  have n3 : ¬ placeholder kCanon <:+: SyntaxKind.template .unrecognizedLine := findSub_eq_none.1 (by decide)
  have n0 : ¬ (str% "option '%canonical_option%'") <:+: SyntaxKind.template .unrecognizedLine := findSub_eq_none.1 (by decide)
  have n1 : ¬ (str% "%prefix%") <:+: SyntaxKind.template .unrecognizedLine := findSub_eq_none.1 (by decide)
  have n2 : ¬ (str% "argument ('%value%')") <:+: SyntaxKind.template .unrecognizedLine := findSub_eq_none.1 (by decide)
  show (match applyDefaults f [(kCanon, []), (kLine, s), (kOption, []), (kToken, []), (kPrefix, [])] substDefaults (SyntaxKind.template .unrecognizedLine) with
    | none => none | some msg => applySubsts f [(kCanon, []), (kLine, s), (kOption, []), (kToken, []), (kPrefix, [])] msg) = _
  generalize SyntaxKind.template .unrecognizedLine = T at n0 n1 n2 n3
  unfold substDefaults
  rw [applyDefaults, if_pos (show (SMap.get? [(kCanon, []), (kLine, s), (kOption, []), (kToken, []), (kPrefix, [])] _).getD [] = [] from rfl), replaceToken_none n0]
  dsimp only
  rw [applyDefaults, if_pos (show (SMap.get? [(kCanon, []), (kLine, s), (kOption, []), (kToken, []), (kPrefix, [])] _).getD [] = [] from rfl), replaceToken_none n1]
  dsimp only
  rw [applyDefaults, if_pos (show (SMap.get? [(kCanon, []), (kLine, s), (kOption, []), (kToken, []), (kPrefix, [])] _).getD [] = [] from rfl), replaceToken_none n2]
  dsimp only
  rw [applyDefaults]
  dsimp only
  rw [applySubsts, show '%' :: kCanon ++ ['%'] = placeholder kCanon from rfl, replaceToken_none n3]

theorem badLine_filled (s : Str) (hc : ¬ placeholder kLine <:+: s) (f : Nat) : replaceToken (f + 1) (SyntaxKind.template .unrecognizedLine) (placeholder kLine) s =
    some (str% "the options configuration file contains an invalid line '" ++ s ++ str% "'") := by
  have := replaceToken_append (src := placeholder kLine) (q := '\'') (placeholder_ne _) (by decide) 0 (f + 1) (str% "the options configuration file contains an invalid line ")
    (str% "%invalid_line%'") s (str% "the options configuration file contains an invalid line ") (s ++ str% "'") (replaceToken_none (findSub_eq_none.1 (by decide))) ?_ (findSub_eq_none.1 (by decide))
  · rw [Nat.zero_add] at this
    rw [show SyntaxKind.template .unrecognizedLine = str% "the options configuration file contains an invalid line " ++ '\'' :: str% "%invalid_line%'" from rfl, this]
    simp
  · have hfs : findSub (str% "%invalid_line%'") (placeholder kLine) = some 0 := by decide
    rw [replaceToken, hfs]
    dsimp only
    rw [List.take_zero, List.nil_append, show List.drop (0 + (placeholder kLine).length) (str% "%invalid_line%'") = str% "'" from rfl]
    apply replaceToken_none
    have := findSub_append (p := placeholder kLine) (q := '\'') (placeholder_ne _) (by decide) s []
    rw [findSub_eq_none.2 hc] at this
    exact findSub_eq_none.1 (by rw [this]; rfl)

/-- **C95, when the message about a line is never made.** `what()` of the exception about the line `s` returns iff `s`
does not contain `%invalid_line%`. -/
theorem C95_line_returns (s : Str) : (∃ f m, (badLine s).what f = some m) ↔ ¬ str% "%invalid_line%" <:+: s := by
  have hsub := badLine_subst s
  constructor
  · rintro ⟨f, m, h⟩ hc
    have hT : placeholder kLine <:+: SyntaxKind.template .unrecognizedLine := ⟨str% "the options configuration file contains an invalid line '", str% "'", rfl⟩
    have hc : placeholder kLine <:+: s := hc
    rw [hsub, applySubsts, show '%' :: kLine ++ ['%'] = placeholder kLine from rfl, replaceToken_diverges f _ _ _ hT hc] at h
    cases h
  · intro hc
    have hc : ¬ placeholder kLine <:+: s := hc
    have hl := badLine_filled s hc
    have step : ∀ (ss : SMap Str), (∀ p ∈ ss, p.2 = []) → ∀ msg f, msg.length ≤ f → ∃ r, applySubsts f ss msg = some r := by
      intro ss
      induction ss with
      | nil => intro _ msg f _; exact ⟨msg, rfl⟩
      | cons p ss ih =>
        intro hp msg f hf
        obtain ⟨k, v⟩ := p
        obtain rfl : v = [] := hp (k, v) (by simp)
        obtain ⟨r, hr, hlen⟩ := replaceToken_nil (placeholder k) (placeholder_ne k) msg f hf
        rw [applySubsts, show '%' :: k ++ ['%'] = placeholder k from rfl, hr]
        exact ih (fun p h => hp p (by simp [h])) r f (by omega)
    obtain ⟨r, hr⟩ := step [(kOption, []), (kToken, []), (kPrefix, [])] (by simp) (str% "the options configuration file contains an invalid line '" ++ s ++ str% "'")
      ((str% "the options configuration file contains an invalid line '" ++ s ++ str% "'").length + 1) (by omega)
    refine ⟨(str% "the options configuration file contains an invalid line '" ++ s ++ str% "'").length + 1, r, ?_⟩
    · rw [hsub, applySubsts, show '%' :: kLine ++ ['%'] = placeholder kLine from rfl, hl]
      exact hr

/-- **C95, negation.** A line may contain the placeholder: the message of the refused file is never made. -/
theorem C95_negation : ∃ text e, parseConfigFile text [] false = .error (.opt e) ∧ ∀ f, e.what f = none := by
  refine ⟨str% "%invalid_line%", badLine (str% "%invalid_line%"), rfl, fun f => ?_⟩
  cases h : (badLine (str% "%invalid_line%")).what f with
  | none => rfl
  | some m => exact absurd ⟨[], [], rfl⟩ ((C95_line_returns _).1 ⟨f, m, h⟩)

/-- **C95 (partial), required options.** After any history of stores of sources with names free of percent signs: if a required option is missing, the
message of `notify` displays the least missing name, in the longest of the forms the sources give it. -/
theorem C95_required_partial (srcs : List (Parsed × Bool)) (m : VarMap) (h : History {} srcs m) (hn : ∀ k n, RequiredAs srcs k n → '%' ∉ n)
    (hm : ∃ k n, RequiredAs srcs k n ∧ (m.get k).v = none) :
    ∃ k display e, (m.get k).v = none ∧ (∀ k' n, RequiredAs srcs k' n → (m.get k').v = none → ¬ Earlier k' k) ∧
      RequiredAs srcs k display ∧ (∀ n, RequiredAs srcs k n → n.length ≤ display.length) ∧ m.notify = ([], some (.opt e)) ∧
      ∀ f, 5 ≤ f → e.what f = some (if display = [] then str% "the option is required but missing" else str% "the option '" ++ display ++ str% "' is required but missing") := by
  obtain ⟨k, display, h2, h3, h4, h5, h6⟩ := (C38_required srcs m h).1 hm
  exact ⟨k, display, _, h2, h3, h4, h5, h6, required_what display (np_clean' (hn k display h4))⟩

/-- A name in a section that does not have it. -/
example : ∃ e, parseConfigFile (str% "a=1 # first\n[net]\r\n  port = 3\nhost=x") [Test.od "a" Test.unt, Test.od "net.port" Test.unt] false = .error (.opt e) ∧
    e.what 5 = some (str% "unrecognised option 'net.host'") := by
  refine ⟨unknownName (str% "net.host"), rfl, ?_⟩
  rw [unknownName_what _ (np_clean' (by decide)) 5 (Nat.le_refl _)]
  rfl

/-- A line that is none of those allowed, after a line in order. -/
example : Complains [Test.od "a" Test.unt] false [] [str% "a=1", str% " what # ?"] (str% "the options configuration file contains an invalid line 'what'") :=
  .item (str% "a=1") (str% "a") (str% "1") ⟨str% "a=1", [], rfl, by decide, .inl rfl, [], [], rfl, by simp, by simp, by rintro c (h | h) <;> cases h <;> decide⟩
    ⟨by simp, str% "a", str% "1", rfl, by decide, ⟨[], [], rfl, by simp, by simp, by rintro c (h | h) <;> cases h <;> decide⟩, ⟨[], [], rfl, by simp, by simp, by rintro c (h | h) <;> cases h <;> decide⟩⟩
    (.inl ⟨_, List.mem_singleton.2 rfl, .inl ⟨rfl, by decide⟩⟩)
    (.neither (str% "what") ⟨str% " what ", str% "# ?", rfl, by decide, .inr rfl, str% " ", str% " ", rfl, by simp [WhiteSpace], by simp [WhiteSpace], by rintro c (h | h) <;> cases h <;> decide⟩
      (by decide) (by simp) (by decide))

end PO
