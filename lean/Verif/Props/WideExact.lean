import Verif.Props.Wide
import Verif.Props.Utf8
/-
C72: exactly which wide command lines fail in the conversion of the results.
-/
namespace PO
open Spec

/-- The text begins with an octet from the middle of a character: it was cut there. -/
def Spec.CutInside (v : Str) : Prop := ∃ x, v.head? = some x ∧ 0x80 ≤ x.toNat ∧ x.toNat < 0xc0

/-- A text that was cut from UTF-8 text, but not inside a character, is UTF-8 text. -/
theorem utf8Text_cut (w : WStr) (hw : Wchars w) (a v : Str) (hc : ¬ CutInside v) (h : utf8Text w = a ++ v) :
    ∃ wa wb, w = wa ++ wb ∧ a = utf8Text wa ∧ v = utf8Text wb := by
  induction w generalizing a with
  | nil =>
    obtain ⟨rfl, rfl⟩ : a = [] ∧ v = [] := by simpa [utf8Text, octetsToStr] using h.symm
    exact ⟨[], [], rfl, rfl, rfl⟩
  | cons y w ih =>
    have hw' : Wchars w := fun z hz => hw z (by simp [hz])
    cases a with
    | nil => exact ⟨[], y :: w, rfl, rfl, h.symm⟩
    | cons z a =>
      rw [utf8Text_cons] at h
      rw [List.append_eq_append_iff] at h
      rcases h with ⟨a', h1, h2⟩ | ⟨c', h1, h2⟩
      · obtain ⟨wa, wb, h3, h4, h5⟩ := ih hw' a' h2
        exact ⟨y :: wa, wb, by rw [h3]; rfl, by rw [utf8Text_cons, h1, h4], h5⟩
      · cases c' with
        | nil =>
          refine ⟨[y], w, rfl, ?_, by simpa using h2⟩
          rw [utf8Text_cons, h1]
          simp [utf8Text, octetsToStr]
        | cons x c' =>
          exfalso
          refine hc ⟨x, by rw [h2]; rfl, ?_⟩
          unfold encodeChar octetsToStr at h1
          rw [List.map_cons, List.cons_append, List.cons.injEq] at h1
          have hm : x ∈ (contOctets y (contOut y)).map Char.ofNat := by rw [h1.2]; simp
          obtain ⟨o, ho, rfl⟩ := List.mem_map.1 hm
          have := contOctets_high _ _ o ho
          rw [toNat_ofNat_small (by omega)]
          exact this

/-- A text that begins inside a character cannot be decoded. -/
theorem fromUtf8_cut (env : Env) {v : Str} (hc : CutInside v) : env.withUtf8.fromUtf8 v = none := by
  show (PO.fromUtf8 (strToOctets v)).toOption = none
  cases h : PO.fromUtf8 (strToOctets v) with
  | error f => rfl
  | ok ws =>
    exfalso
    obtain ⟨parts, h1, h2⟩ := (C86_decoded _ _).1 h
    obtain ⟨x, hx, hlo, hhi⟩ := hc
    cases v with
    | nil => cases hx
    | cons y v =>
      simp only [List.head?_cons, Option.some.injEq] at hx
      subst hx
      cases h2 with
      | nil => cases h1
      | cons hp t =>
        cases hp with
        | intro hi ds hn hh hd =>
          unfold strToOctets at h1
          rw [List.map_cons, List.flatten_cons, List.cons_append, List.cons.injEq] at h1
          have e := h1.1
          rw [e] at hlo hhi
          generalize ds.length = n at hn hh hlo hhi
          match n, hn with
          | 0, _ => simp [lead] at hh hlo hhi; omega
          | 1, _ => simp [lead] at hh hlo hhi; omega
          | 2, _ => simp [lead] at hh hlo hhi; omega
          | 3, _ => simp [lead] at hh hlo hhi; omega
          | 4, _ => simp [lead] at hh hlo hhi; omega
          | 5, _ => simp [lead] at hh hlo hhi; omega

theorem mapM_none {α β : Type} {f : α → Option β} {xs : List α} {x : α} (hx : x ∈ xs) (h : f x = none) : xs.mapM f = none := by
  induction xs with
  | nil => cases hx
  | cons y xs ih =>
    rw [List.mapM_cons]
    rcases List.mem_cons.1 hx with rfl | hx
    · rw [h]; rfl
    · cases f y with
      | none => rfl
      | some z => rw [ih hx]; rfl

theorem mapOk_fails {α β : Type} (f : α → Except Fail β) (e : Fail) (hf : ∀ x g, f x = .error g → g = e) {xs : List α} {x : α} (hx : x ∈ xs)
    (h : f x = .error e) : mapOk f xs = .error e := by
  induction xs with
  | nil => cases hx
  | cons y xs ih =>
    rw [mapOk]
    cases hy : f y with
    | error g => rw [hf y g hy]
    | ok z =>
      rcases List.mem_cons.1 hx with rfl | hx
      · rw [h] at hy; cases hy
      · rw [ih hx]

theorem quoted_cut {c : Cmdline} (ha : c.additional = none) {args : List WStr} (hw : ∀ w ∈ args, Wchars w) {v : Str}
    (hc : ¬ CutInside v) (h : Quoted c (args.map utf8Text) v) : ∃ w, Wchars w ∧ v = utf8Text w ∧ WQuoted args w := by
  cases h with
  | token h =>
    obtain ⟨w, h1, rfl⟩ := List.mem_map.1 h
    exact ⟨w, hw w h1, rfl, .token h1⟩
  | afterEq name h hn hv hs =>
    obtain ⟨w, h1, e⟩ := List.mem_map.1 h
    obtain ⟨wa, wb, h2, h3, h4⟩ := utf8Text_split w (hw w h1) name v '=' (by decide) e
    have hwc := hw w h1
    rw [h2] at hwc h1
    have hwa : Wchars wa := fun x hx => hwc x (by simp [hx])
    refine ⟨wb, fun x hx => hwc x (by simp [hx]), h4, .afterEq wa h1 (not_mem_utf8Text hwa (by decide) (h3 ▸ hn)) ?_⟩
    rintro rfl
    exact hv h4
  | afterLetters lead letters a h hv hs hsh hd =>
    obtain ⟨w, h1, e⟩ := List.mem_map.1 h
    have hlead : lead = '-' ∨ lead = '/' := hs.imp (·.1) (·.1)
    have hlead' : lead.toNat < 128 := by rcases hlead with e | e <;> rw [e] <;> decide
    obtain ⟨wl, wr, h5, h6, h7⟩ := utf8Text_split w (hw w h1) [] (letters ++ a :: v) lead hlead' (by rw [e]; rfl)
    have hwl : wl = [] := utf8Text_inj (fun x hx => hw w h1 x (by rw [h5]; simp [hx])) nofun (h6.symm.trans rfl)
    subst hwl
    rw [List.nil_append] at h5
    subst h5
    have hwr : Wchars wr := fun x hx => hw _ h1 x (by simp [hx])
    obtain ⟨wa, wb, h8, h9, h10⟩ := utf8Text_cut wr hwr (letters ++ [a]) v hc (by rw [← h7]; simp)
    subst h8
    refine ⟨wb, fun x hx => hwr x (by simp [hx]), h10, .afterLetters lead.toNat wa (by simpa using h1) ?_ ?_ ?_⟩
    · rintro rfl
      simp [utf8Text, octetsToStr] at h9
    · rintro rfl
      exact hv h10
    · exact hlead.imp (by rintro rfl; rfl) (by rintro rfl; rfl)
  | additional f tok hf => rw [ha] at hf; cases hf

/-- **C72, exactly:** a wide command line is refused if and as its UTF-8 text is. Otherwise the results can be converted if and only if no value
begins inside a character; they are then the results for the UTF-8 text, decoded, and every wide value is text of the wide command line. If
some value does begin inside a character, the conversion throws. -/
theorem C72_iff (env : Env) (c : Cmdline) (hs : c.styleParser = none) (ha : c.additional = none)
    (hne : ∀ d ∈ c.desc, ∀ name, name ≠ [] → reportedKey d name ≠ []) (args : List WStr) (hlen : args.length < 2147483648)
    (hw : ∀ w ∈ args, ∀ x ∈ w, x < 2 ^ 31) :
    ∃ as, args.mapM env.withUtf8.toUtf8 = some as ∧
      (∀ f, c.parse as = .error f → c.wparse env.withUtf8 args = .error f) ∧
      ∀ p, c.parse as = .ok p →
        ((∃ o ∈ p.options, ∃ v ∈ o.value, CutInside v) → c.wparse env.withUtf8 args = .error .conversion) ∧
        ((∀ o ∈ p.options, ∀ v ∈ o.value, ¬ CutInside v) → ∃ wp, c.wparse env.withUtf8 args = .ok wp ∧ wp.utf8 = p ∧
          List.Forall₂ (Decodes env.withUtf8) p.options wp.options ∧
          ∀ wo ∈ wp.options, (∀ v ∈ wo.value, WQuoted args v) ∧ ∀ t ∈ wo.originalTokens, WOnRecord args t) := by
  refine ⟨args.map utf8Text, mapM_utf8Text env args, ?_, ?_⟩
  · intro f hf
    unfold Cmdline.wparse
    rw [mapM_utf8Text]
    dsimp only
    rw [hf]
  · intro p hp
    have hparse : c.wparse env.withUtf8 args = p.toWide env.withUtf8 := by
      unfold Cmdline.wparse
      rw [mapM_utf8Text]
      dsimp only
      rw [hp]
    refine ⟨?_, fun hcut => ?_⟩
    · rintro ⟨o, ho, v, hv, hc⟩
      rw [hparse]
      unfold Parsed.toWide
      rw [mapOk_fails (wopt env.withUtf8) .conversion ?_ ho ?_]
      · intro x g hg
        unfold wopt at hg
        split at hg
        · cases hg
        · cases hg; rfl
      · unfold wopt
        rw [mapM_none hv (fromUtf8_cut env hc)]
    · have hrun : c.run (args.map utf8Text) = .ok p.options := by
        unfold Cmdline.parse at hp
        cases hr : c.run (args.map utf8Text) with
        | error f => rw [hr] at hp; cases hp
        | ok os => rw [hr] at hp; cases hp; rfl
      have htext := C71_values_are_typed c hs hne (args.map utf8Text) (by simpa using hlen) p.options hrun
      have key : ∀ o ∈ p.options, ∃ wo, wopt env.withUtf8 o = .ok wo ∧ (Decodes env.withUtf8 o wo ∧
          ((∀ v ∈ wo.value, WQuoted args v) ∧ ∀ t ∈ wo.originalTokens, WOnRecord args t)) := by
        intro o ho
        obtain ⟨h1, h2⟩ := htext o ho
        obtain ⟨vs, h3, h4, h5⟩ := mapM_back env o.value fun s hs => by
          obtain ⟨w, h, h', _⟩ := quoted_cut ha hw (hcut o ho s hs) (h1 s hs)
          exact ⟨w, h, h'⟩
        obtain ⟨ts, h6, h7, h8⟩ := mapM_back env o.originalTokens fun s hs => by
          obtain ⟨w, h, h', _⟩ := onRecord_wide hw (h2 s hs)
          exact ⟨w, h, h'⟩
        refine ⟨_, by unfold wopt; rw [h3, h6], ⟨rfl, rfl, rfl, ?_, ?_⟩, ?_, ?_⟩
        · exact (mapM_utf8Text env vs).trans (by rw [h4])
        · exact (mapM_utf8Text env ts).trans (by rw [h7])
        · intro v hv
          have hin : utf8Text v ∈ o.value := by rw [← h4]; exact List.mem_map_of_mem hv
          obtain ⟨w, hwc, e, hq⟩ := quoted_cut ha hw (hcut o ho _ hin) (h1 _ hin)
          rw [utf8Text_inj (h5 v hv) hwc e]
          exact hq
        · intro t ht
          obtain ⟨w, hwc, e, hq⟩ := onRecord_wide hw (h2 (utf8Text t) (by rw [← h7]; exact List.mem_map_of_mem ht))
          rw [utf8Text_inj (h8 t ht) hwc e]
          exact hq
      obtain ⟨wos, h1, h2⟩ := mapOk_get _ _ p.options key
      refine ⟨{ desc := p.desc, options := wos, utf8 := p, pre := p.pre }, ?_, rfl, h2.imp (fun _ _ h => h.1), ?_⟩
      · rw [hparse]
        unfold Parsed.toWide
        rw [h1]
      · intro wo hwo
        obtain ⟨o, h⟩ := forall₂_right h2 wo hwo
        exact h.2

/-- Not vacuous: with unregistered options allowed, `-xé` is read as `x` with the value `é`, and `-éx` is cut inside `é`. -/
example :
    let c : Cmdline := { desc := [], allowUnregistered := true }
    (∃ p, c.parse [utf8Text (("-xé".toList).map Char.toNat)] = .ok p ∧ ∀ o ∈ p.options, ∀ v ∈ o.value, v = utf8Text ['é'.toNat]) ∧
    (∃ wp, c.wparse Test.env.withUtf8 [("-xé".toList).map Char.toNat] = .ok wp ∧ wp.options.map (·.value) = [[['é'.toNat]]]) ∧
    c.wparse Test.env.withUtf8 [("-éx".toList).map Char.toNat] = .error .conversion :=
  ⟨⟨_, rfl, by decide⟩, ⟨_, rfl, rfl⟩, rfl⟩

end PO
