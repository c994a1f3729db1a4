import Verif.Spec.Wide
import Verif.Props.Verbatim
import Verif.Props.Convert
/-
C72: wide command lines.
-/
namespace PO
open Spec

/-- The UTF-8 text of a wide string. -/
def utf8Text (w : WStr) : Str := octetsToStr (w.flatMap encodeChar)

theorem utf8Text_append (a b : WStr) : utf8Text (a ++ b) = utf8Text a ++ utf8Text b := by
  unfold utf8Text octetsToStr
  rw [List.flatMap_append, List.map_append]

theorem utf8Text_cons (x : Nat) (b : WStr) : utf8Text (x :: b) = octetsToStr (encodeChar x) ++ utf8Text b := utf8Text_append [x] b |>.trans (by simp [utf8Text])

theorem encodeChar_ascii (x : Nat) (h : x < 128) : encodeChar x = [x] := by
  have : contOut x = 0 := by unfold contOut; rw [if_pos h]
  unfold encodeChar
  rw [this]
  simp [octet1, contOctets]

theorem utf8Text_ascii (x : Nat) (h : x < 128) (b : WStr) : utf8Text (x :: b) = Char.ofNat x :: utf8Text b := by
  rw [utf8Text_cons, encodeChar_ascii x h]
  rfl

theorem contOctets_high (w n : Nat) : ∀ b ∈ contOctets w n, 128 ≤ b ∧ b < 192 := by
  induction n with
  | zero => nofun
  | succ n ih =>
    intro b hb
    rw [contOctets] at hb
    rcases List.mem_cons.1 hb with rfl | hb
    · have := Nat.mod_lt (w / 64 ^ n) (show 0 < 64 by decide)
      omega
    · exact ih b hb

/-- The octets of a character outside ASCII are all outside ASCII. -/
theorem encodeChar_high (x : Nat) (h : 128 ≤ x) : ∀ b ∈ encodeChar x, 128 ≤ b := by
  intro b hb
  unfold encodeChar at hb
  rcases List.mem_cons.1 hb with rfl | hb
  · have h1 : 1 ≤ contOut x := by
      unfold contOut
      rw [if_neg (by omega)]
      repeat' split
      all_goals omega
    generalize contOut x = n at h1 ⊢
    match n, h1 with
    | 1, _ => simp [octet1]; omega
    | 2, _ => simp [octet1]; omega
    | 3, _ => simp [octet1]; omega
    | 4, _ => simp [octet1]; omega
    | n + 5, _ =>
      have : octet1 (n + 5) = 0xfc := rfl
      rw [this]
      exact Nat.le_trans (by decide) (Nat.le_add_right 0xfc _)
  · exact (contOctets_high _ _ b hb).1

theorem encodeChar_octet (x : Nat) (h : x < 2 ^ 31) : ∀ b ∈ encodeChar x, b < 256 := by
  obtain ⟨bs, h1, -, h3⟩ := C57_round_trip [x] (by simpa using h)
  have : toUtf8 [x] = .ok (encodeChar x) := by
    have := (C56_chunks utf8Encoder_fits utf8Out_implements [x] ([x].flatMap encodeChar)).2 (Run_encoder [x])
    rw [show [x].flatMap encodeChar = encodeChar x by simp] at this
    exact this
  rw [this] at h1
  cases h1
  exact h3

theorem toNat_ofNat_small {n : Nat} (h : n < 256) : (Char.ofNat n).toNat = n := by
  have hv : n.isValidChar := .inl (by omega)
  unfold Char.ofNat
  rw [dif_pos hv]
  rfl

theorem octets_back (bs : List Nat) (h : ∀ b ∈ bs, b < 256) : strToOctets (octetsToStr bs) = bs := by
  unfold strToOctets octetsToStr
  rw [List.map_map]
  conv => rhs; rw [← List.map_id bs]
  exact List.map_congr_left fun b hb => toNat_ofNat_small (h b hb)

/-- Characters that fit a `wchar_t`. -/
def Wchars (w : WStr) : Prop := ∀ x ∈ w, x < 2 ^ 31

theorem withUtf8_to (env : Env) (w : WStr) : env.withUtf8.toUtf8 w = some (utf8Text w) := by
  show (PO.toUtf8 w).toOption.map octetsToStr = _
  have : PO.toUtf8 w = .ok (w.flatMap encodeChar) := (C56_chunks utf8Encoder_fits utf8Out_implements w _).2 (Run_encoder w)
  rw [this]
  rfl

theorem withUtf8_from (env : Env) (w : WStr) (h : Wchars w) : env.withUtf8.fromUtf8 (utf8Text w) = some w := by
  show (PO.fromUtf8 (strToOctets (octetsToStr (w.flatMap encodeChar)))).toOption = _
  rw [octets_back]
  · have : PO.fromUtf8 (w.flatMap encodeChar) = .ok w := (C56_chunks utf8Decoder_fits utf8In_implements _ _).2 (Run_decoder w h)
    rw [this]
    rfl
  · intro b hb
    obtain ⟨x, hx, hb⟩ := List.mem_flatMap.1 hb
    exact encodeChar_octet x (h x hx) b hb

/-- A place with an ASCII character in the UTF-8 text is a place between characters. -/
theorem utf8Text_split (w : WStr) (hw : Wchars w) (a b : Str) (x : Char) (hx : x.toNat < 128) (h : utf8Text w = a ++ x :: b) :
    ∃ wa wb, w = wa ++ x.toNat :: wb ∧ a = utf8Text wa ∧ b = utf8Text wb := by
  induction w generalizing a with
  | nil => cases a <;> cases h
  | cons y w ih =>
    have hw' : Wchars w := fun z hz => hw z (by simp [hz])
    by_cases hy : y < 128
    · rw [utf8Text_ascii y hy] at h
      cases a with
      | nil =>
        rw [List.nil_append, List.cons.injEq] at h
        refine ⟨[], w, ?_, rfl, h.2.symm⟩
        rw [← h.1, toNat_ofNat_small (by omega)]
        rfl
      | cons z a =>
        rw [List.cons_append, List.cons.injEq] at h
        obtain ⟨wa, wb, h1, h2, h3⟩ := ih hw' a h.2
        refine ⟨y :: wa, wb, by rw [h1]; rfl, ?_, h3⟩
        rw [utf8Text_ascii y hy, h2, h.1]
    · rw [utf8Text_cons] at h
      have hlow : x ∉ octetsToStr (encodeChar y) := by
        intro hm
        obtain ⟨o, ho, e⟩ := List.mem_map.1 hm
        have h1 := encodeChar_high y (by omega) o ho
        have h2 := encodeChar_octet y (hw y (by simp)) o ho
        rw [← e, toNat_ofNat_small h2] at hx
        omega
      rw [List.append_eq_append_iff] at h
      rcases h with ⟨a', h1, h2⟩ | ⟨c', h1, h2⟩
      · obtain ⟨wa, wb, h3, h4, h5⟩ := ih hw' a' h2
        refine ⟨y :: wa, wb, by rw [h3]; rfl, ?_, h5⟩
        rw [utf8Text_cons, h1, h4]
      · cases c' with
        | nil =>
          obtain ⟨wa, wb, h3, h4, h5⟩ := ih hw' [] (by simpa using h2.symm)
          refine ⟨y :: wa, wb, by rw [h3]; rfl, ?_, h5⟩
          rw [utf8Text_cons, h1, ← h4]
          simp
        | cons z c' =>
          rw [List.cons_append, List.cons.injEq] at h2
          refine absurd ?_ hlow
          rw [h1, h2.1]
          simp

theorem mapM_utf8Text (env : Env) (ws : List WStr) : ws.mapM env.withUtf8.toUtf8 = some (ws.map utf8Text) := by
  induction ws with
  | nil => rfl
  | cons w ws ih => rw [List.mapM_cons, withUtf8_to, ih]; rfl

theorem mapM_back (env : Env) (ss : List Str) (h : ∀ s ∈ ss, ∃ w, Wchars w ∧ s = utf8Text w) :
    ∃ ws, ss.mapM env.withUtf8.fromUtf8 = some ws ∧ ws.map utf8Text = ss ∧ (∀ w ∈ ws, Wchars w) := by
  induction ss with
  | nil => exact ⟨[], rfl, rfl, nofun⟩
  | cons s ss ih =>
    obtain ⟨w, hw, e⟩ := h s (by simp)
    obtain ⟨ws, h1, h2, h3⟩ := ih fun s hs => h s (by simp [hs])
    refine ⟨w :: ws, ?_, by rw [List.map_cons, h2, e], ?_⟩
    · rw [List.mapM_cons, e, withUtf8_from env w hw, h1]; rfl
    · intro x hx
      rcases List.mem_cons.1 hx with rfl | hx
      · exact hw
      · exact h3 x hx

theorem utf8Text_inj {a b : WStr} (ha : Wchars a) (hb : Wchars b) (h : utf8Text a = utf8Text b) : a = b := by
  have h1 := withUtf8_from Test.env a ha
  rw [h, withUtf8_from Test.env b hb] at h1
  exact (Option.some.inj h1).symm

theorem Wchars.append_right {a b : WStr} (h : Wchars (a ++ b)) : Wchars b := fun x hx => h x (by simp [hx])

theorem not_mem_utf8Text {w : WStr} (hw : Wchars w) {x : Char} (hx : x.toNat < 128) (h : x ∉ utf8Text w) : x.toNat ∉ w := by
  intro hm
  obtain ⟨a, b, rfl⟩ := List.append_of_mem hm
  refine h ?_
  rw [utf8Text_append, utf8Text_ascii _ hx]
  have : Char.ofNat x.toNat = x := by simp
  rw [this]
  simp

theorem quoted_wide {c : Cmdline} (ha : c.additional = none) {args : List WStr} (hw : ∀ w ∈ args, Wchars w)
    (hl : AsciiLetters c ∨ AsciiShort args) {v : Str} (h : Quoted c (args.map utf8Text) v) :
    ∃ w, Wchars w ∧ v = utf8Text w ∧ WQuoted args w := by
  cases h with
  | token h =>
    obtain ⟨w, h1, rfl⟩ := List.mem_map.1 h
    exact ⟨w, hw w h1, rfl, .token h1⟩
  | afterEq name h hn hv hs =>
    obtain ⟨w, h1, e⟩ := List.mem_map.1 h
    obtain ⟨wa, wb, h2, h3, h4⟩ := utf8Text_split w (hw w h1) name v '=' (by decide) e
    have hwc := hw w h1
    rw [h2] at hwc h1
    have hwa : Wchars wa := fun x hx => hwc x (by simp [hx])
    refine ⟨wb, fun x hx => hwc x (by simp [hx]), h4, .afterEq wa h1 (not_mem_utf8Text hwa (by decide) (h3 ▸ hn)) ?_⟩
    rintro rfl
    exact hv h4
  | afterLetters lead letters a h hv hs hsh hd =>
    obtain ⟨w, h1, e⟩ := List.mem_map.1 h
    have hlead : lead = '-' ∨ lead = '/' := hs.imp (·.1) (·.1)
    have hlead' : lead.toNat < 128 := by rcases hlead with e | e <;> rw [e] <;> decide
    -- the first character
    obtain ⟨wl, wr, h5, h6, h7⟩ := utf8Text_split w (hw w h1) [] (letters ++ a :: v) lead hlead' (by rw [e]; rfl)
    have hwl : wl = [] := utf8Text_inj (fun x hx => hw w h1 x (by rw [h5]; simp [hx])) nofun (h6.symm.trans rfl)
    subst hwl
    rw [List.nil_append] at h5
    subst h5
    have hwr : Wchars wr := fun x hx => hw _ h1 x (by simp [hx])
    have hasc : a.toNat < 128 := by
      rcases hl with hl | hl
      · rcases Nat.lt_or_ge a.toNat 128 with h' | h'
        · exact h'
        · have hun := hl.2 a h'
          rcases hd with ⟨d, hd⟩ | ⟨_, hd⟩
          · exfalso
            unfold Denotes at hd
            dsimp only at hd
            rcases hd with hd | ⟨_, hd⟩
            · have hm : d ∈ exacts c.desc ['-', a] (active c.style Style.longCaseInsensitive) (active c.style Style.shortCaseInsensitive) := by rw [hd]; simp
              have := List.mem_filter.1 hm
              exact (hun d this.1).1 (by simpa using this.2)
            · have hm : d ∈ approximates c.desc ['-', a] (active c.style Style.allowGuessing) (active c.style Style.longCaseInsensitive)
                  (active c.style Style.shortCaseInsensitive) := by rw [hd]; simp
              have := List.mem_filter.1 hm
              exact (hun d this.1).2 (by simpa using (of_decide_eq_true this.2).2)
          · rw [hl.1] at hd; cases hd
      · have hall := hl lead.toNat wr h1 (by
          rcases hs with ⟨h, hh, _⟩ | ⟨h, _⟩
          · refine .inl ⟨by rw [h], ?_⟩
            intro hr
            cases wr with
            | nil => cases hr
            | cons y wr =>
              simp only [List.head?_cons, Option.some.injEq] at hr
              subst hr
              rw [utf8Text_ascii _ (by decide)] at h7
              cases letters with
              | nil => cases h7; exact hh rfl
              | cons z letters =>
                rw [List.cons_append, List.cons.injEq] at h7
                exact hh (by rw [h7.1]; rfl)
          · exact .inr (by rw [h]))
        have hm : a ∈ utf8Text wr := by rw [← h7]; simp
        obtain ⟨o, ho, e⟩ := List.mem_map.1 hm
        obtain ⟨x, hx, ho⟩ := List.mem_flatMap.1 ho
        rw [encodeChar_ascii x (hall x hx), List.mem_singleton] at ho
        rw [← e, ho, toNat_ofNat_small (by have := hall x hx; omega)]
        exact hall x hx
    obtain ⟨wa, wb, h8, h9, h10⟩ := utf8Text_split wr hwr letters v a hasc h7.symm
    subst h8
    refine ⟨wb, fun x hx => hwr x (by simp [hx]), h10, .afterLetters lead.toNat (wa ++ [a.toNat]) (by simpa using h1) (by simp) ?_ ?_⟩
    · rintro rfl
      exact hv h10
    · exact hlead.imp (by rintro rfl; rfl) (by rintro rfl; rfl)
  | additional f tok hf => rw [ha] at hf; cases hf

theorem onRecord_wide {c : Cmdline} {args : List WStr} (hw : ∀ w ∈ args, Wchars w) {t : Str} (h : OnRecord c (args.map utf8Text) t) :
    ∃ w, Wchars w ∧ t = utf8Text w ∧ WOnRecord args w := by
  cases h with
  | token h =>
    obtain ⟨w, h1, rfl⟩ := List.mem_map.1 h
    exact ⟨w, hw w h1, rfl, .token h1⟩
  | disguised lead rest h hl hd e =>
    obtain ⟨w, h1, e'⟩ := List.mem_map.1 h
    have hlead' : lead.toNat < 128 := by rcases hl with e | e <;> rw [e] <;> decide
    obtain ⟨wl, wr, h5, h6, h7⟩ := utf8Text_split w (hw w h1) [] rest lead hlead' (by rw [e']; rfl)
    have hwl : wl = [] := utf8Text_inj (fun x hx => hw w h1 x (by rw [h5]; simp [hx])) nofun (h6.symm.trans rfl)
    subst hwl
    rw [List.nil_append] at h5
    subst h5
    refine ⟨'-'.toNat :: '-'.toNat :: wr, ?_, ?_, .disguised lead.toNat wr h1 (hl.imp (by rintro rfl; rfl) (by rintro rfl; rfl)) rfl⟩
    · intro x hx
      simp only [List.mem_cons] at hx
      rcases hx with rfl | rfl | hx
      · decide
      · decide
      · exact hw _ h1 x (by simp [hx])
    · rw [e, utf8Text_ascii _ (by decide), utf8Text_ascii _ (by decide), h7]
      rfl

theorem mapOk_get {α β : Type} (f : α → Except Fail β) (g : α → β → Prop) (xs : List α) (h : ∀ x ∈ xs, ∃ y, f x = .ok y ∧ g x y) :
    ∃ ys, mapOk f xs = .ok ys ∧ List.Forall₂ g xs ys := by
  induction xs with
  | nil => exact ⟨[], rfl, .nil⟩
  | cons x xs ih =>
    obtain ⟨y, h1, h2⟩ := h x (by simp)
    obtain ⟨ys, h3, h4⟩ := ih fun x hx => h x (by simp [hx])
    refine ⟨y :: ys, ?_, .cons h2 h4⟩
    rw [mapOk, h1, h3]

theorem forall₂_right {α β : Type} {g : α → β → Prop} {xs : List α} {ys : List β} (h : List.Forall₂ g xs ys) : ∀ y ∈ ys, ∃ x, g x y := by
  induction h with
  | nil => nofun
  | cons h _ ih =>
    intro y hy
    rcases List.mem_cons.1 hy with rfl | hy
    · exact ⟨_, h⟩
    · exact ih y hy

/-- The wide option `wo` is the option `o` with its texts decoded. -/
def Decodes (env : Env) (o : Opt) (wo : WOpt) : Prop :=
  wo.stringKey = o.stringKey ∧ wo.positionKey = o.positionKey ∧ wo.unregistered = o.unregistered ∧
    wo.value.mapM env.toUtf8 = some o.value ∧ wo.originalTokens.mapM env.toUtf8 = some o.originalTokens

/-- The full claim of C72. -/
def C72_claim : Prop := ∀ (env : Env) (c : Cmdline) (args : List WStr), c.styleParser = none → c.additional = none →
  (∀ d ∈ c.desc, ∀ name, name ≠ [] → reportedKey d name ≠ []) → args.length < 2147483648 →
  (∀ w ∈ args, ∀ x ∈ w, x.isValidChar) → c.wparse env.withUtf8 args ≠ .error .conversion

/-- **C72 is violated:** with unregistered options allowed, `-é` is cut between the two octets of `é`, and the second one cannot be decoded. -/
theorem C72_negation : ¬ C72_claim := by
  intro h
  refine h Test.env { desc := [], allowUnregistered := true } [['-'.toNat, 'é'.toNat]] rfl rfl nofun (by decide) (by decide) ?_
  rfl

/-- **C72, what holds:** if no declared option has a letter outside ASCII and undeclared options are refused, or if the tokens that can
be short options are ASCII, then a wide command line is read as its UTF-8 text is, with the same exceptions, and the results are
decoded; every wide value is text of the wide command line. -/
theorem C72_wide_partial (env : Env) (c : Cmdline) (hs : c.styleParser = none) (ha : c.additional = none)
    (hne : ∀ d ∈ c.desc, ∀ name, name ≠ [] → reportedKey d name ≠ []) (args : List WStr) (hlen : args.length < 2147483648)
    (hw : ∀ w ∈ args, ∀ x ∈ w, x < 2 ^ 31) (hl : AsciiLetters c ∨ AsciiShort args) :
    ∃ as, args.mapM env.withUtf8.toUtf8 = some as ∧
      (∀ f, c.parse as = .error f → c.wparse env.withUtf8 args = .error f) ∧
      ∀ p, c.parse as = .ok p → ∃ wp, c.wparse env.withUtf8 args = .ok wp ∧ wp.utf8 = p ∧
        List.Forall₂ (Decodes env.withUtf8) p.options wp.options ∧
        ∀ wo ∈ wp.options, (∀ v ∈ wo.value, WQuoted args v) ∧ ∀ t ∈ wo.originalTokens, WOnRecord args t := by
  refine ⟨args.map utf8Text, mapM_utf8Text env args, ?_, ?_⟩
  · intro f hf
    unfold Cmdline.wparse
    rw [mapM_utf8Text]
    dsimp only
    rw [hf]
  · intro p hp
    have hrun : c.run (args.map utf8Text) = .ok p.options := by
      unfold Cmdline.parse at hp
      cases hr : c.run (args.map utf8Text) with
      | error f => rw [hr] at hp; cases hp
      | ok os => rw [hr] at hp; cases hp; rfl
    have htext := C71_values_are_typed c hs hne (args.map utf8Text) (by simpa using hlen) p.options hrun
    have key : ∀ o ∈ p.options, ∃ wo, wopt env.withUtf8 o = .ok wo ∧ (Decodes env.withUtf8 o wo ∧
        ((∀ v ∈ wo.value, WQuoted args v) ∧ ∀ t ∈ wo.originalTokens, WOnRecord args t)) := by
      intro o ho
      obtain ⟨h1, h2⟩ := htext o ho
      obtain ⟨vs, h3, h4, h5⟩ := mapM_back env o.value fun s hs => by
        obtain ⟨w, h, h', _⟩ := quoted_wide ha hw hl (h1 s hs)
        exact ⟨w, h, h'⟩
      obtain ⟨ts, h6, h7, h8⟩ := mapM_back env o.originalTokens fun s hs => by
        obtain ⟨w, h, h', _⟩ := onRecord_wide hw (h2 s hs)
        exact ⟨w, h, h'⟩
      refine ⟨_, by unfold wopt; rw [h3, h6], ⟨rfl, rfl, rfl, ?_, ?_⟩, ?_, ?_⟩
      · exact (mapM_utf8Text env vs).trans (by rw [h4])
      · exact (mapM_utf8Text env ts).trans (by rw [h7])
      · intro v hv
        obtain ⟨w, hwc, e, hq⟩ := quoted_wide ha hw hl (h1 (utf8Text v) (by rw [← h4]; exact List.mem_map_of_mem hv))
        rw [utf8Text_inj (h5 v hv) hwc e]
        exact hq
      · intro t ht
        obtain ⟨w, hwc, e, hq⟩ := onRecord_wide hw (h2 (utf8Text t) (by rw [← h7]; exact List.mem_map_of_mem ht))
        rw [utf8Text_inj (h8 t ht) hwc e]
        exact hq
    obtain ⟨wos, h1, h2⟩ := mapOk_get _ _ p.options key
    refine ⟨{ desc := p.desc, options := wos, utf8 := p, pre := p.pre }, ?_, rfl, h2.imp (fun _ _ h => h.1), ?_⟩
    · unfold Cmdline.wparse
      rw [mapM_utf8Text]
      dsimp only
      rw [hp]
      dsimp only
      unfold Parsed.toWide
      rw [h1]
    · intro wo hwo
      obtain ⟨o, h⟩ := forall₂_right h2 wo hwo
      exact h.2

/-- The hypotheses hold for `--out=é`, and the value is the wide text `é`. -/
example : ∃ wp, ({ desc := [Test.od "out" (Test.sem Test.vstr) ""] } : Cmdline).wparse Test.env.withUtf8 [("--out=é".toList).map Char.toNat] = .ok wp ∧
    wp.options.map (·.value) = [[['é'.toNat]]] := ⟨_, rfl, rfl⟩

end PO
