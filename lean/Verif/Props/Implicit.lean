import Verif.Spec.Implicit
import Verif.Props.Forward
import Verif.Lemmas.Refusal
/-
C22, exactly: when an option with an implicit value takes the next token.
-/
namespace PO
open Spec

namespace Cmdline

theorem denotes_unique {c : Cmdline} {name : Str} {d d' : OptionDesc} (h : Denotes c name d) (h' : Denotes c name d') : d = d' := by
  unfold Denotes at h h'
  rcases h with h | ⟨h0, h⟩ <;> rcases h' with h' | ⟨h0', h'⟩
  · rw [h] at h'; cases h'; rfl
  · rw [h] at h0'; cases h0'
  · rw [h0] at h'; cases h'
  · rw [h] at h'; cases h'; rfl

theorem terminator_not_spells {c : Cmdline} {items : List Item} (hu : Unclaimed c ['-', '-']) (h : Spells c ['-', '-'] items) : False := by
  cases h with
  | additional f hf hn => exact hn (hu f hf)
  | long name _ _ ht _ h0 => injection ht with _ ht; injection ht with _ ht; exact h0 ht.symm
  | longEq name v _ _ ht => injection ht with _ ht; injection ht with _ ht; simp at ht
  | disguised lead name d _ _ ht hl hn _ =>
    cases ht
    rcases hl.2 with ⟨_, h⟩ | ⟨h, _⟩
    · exact h rfl
    · exact absurd h (by decide)
  | disguisedEq lead name v d _ _ ht hl _ hv _ =>
    injection ht with h1 h2
    subst h1
    rw [show name ++ '=' :: v = ['-'] from h2.symm] at hl
    rcases hl.2 with ⟨_, h⟩ | ⟨h, _⟩
    · exact h rfl
    · exact absurd h (by decide)
  | short a t items _ _ ht ha _ _ => cases ht; exact ha rfl
  | slash a t _ _ ht => cases ht

/-- A token does not do both. -/
theorem closes_offers {c : Cmdline} {tok v : Str} (h : Closes c tok) (h' : Offers c tok v) : False := by
  rcases h with ⟨rfl, hu⟩ | ⟨i, is, hs, hn⟩
  · rcases h' with ⟨_, h, _⟩ | ⟨i, hs, _⟩
    · exact h rfl
    · exact terminator_not_spells hu hs
  · rcases h' with ⟨hp, _⟩ | ⟨i', hs', hn', _⟩
    · exact plain_not_spells hp hs
    · have := (C61_token c tok).2 _ _ hs hs'
      cases this
      exact hn hn'

/-- What is read first from a command line. -/
theorem reads_first {c : Cmdline} (hne : KeysNonempty c) {args : List Str} {os : List Opt} (h : Reads c args os) :
    (args = [] ∧ os = []) ∨ ∃ t r, args = t :: r ∧
      (Closes c t ∧ (∀ p, os.head? = some p → ¬ Spec.Loose p) ∨ ∃ v p ps, Offers c t v ∧ os = p :: ps ∧ Spec.Loose p ∧ p.value = [v]) := by
  cases h with
  | nil => exact .inl ⟨rfl, rfl⟩
  | @plain tok rest os hp hd _ => exact .inr ⟨_, _, rfl, .inr ⟨tok, _, _, .inl ⟨hp, hd, rfl⟩, rfl, ⟨rfl, (by decide : (-1 : Int) ≠ 2147483647)⟩, rfl⟩⟩
  | @terminator rest hu =>
    refine .inr ⟨_, _, rfl, .inl ⟨.inl ⟨rfl, hu⟩, ?_⟩⟩
    intro p hp hl
    cases rest with
    | nil => cases hp
    | cons t ts => cases hp; exact hl.2 rfl
  | @option tok items taken os rest more hsp hc _ =>
    refine .inr ⟨tok, taken ++ rest, by simp, ?_⟩
    have key : ∀ i is o os', items = i :: is → Completes c i (match is with | [] => taken | _ => []) o → os = o :: os' →
        (Closes c tok ∧ (∀ p, (os ++ more).head? = some p → ¬ Spec.Loose p) ∨ ∃ v p ps, Offers c tok v ∧ os ++ more = p :: ps ∧ Spec.Loose p ∧ p.value = [v]) := by
      rintro i is o os' rfl hci rfl
      by_cases hn : i.name = []
      · right
        rcases spells_unnamed hsp with h | ⟨h1, h2⟩
        · exact absurd hn (h i (by simp))
        · have : is = [] := by simpa using h1
          subst this
          obtain ⟨hv, _⟩ := h2 i (by simp)
          obtain ⟨v, hv⟩ := List.length_eq_one_iff.1 hv
          cases hci with
          | nameless _ => exact ⟨v, _, os' ++ more, .inr ⟨i, hsp, hn, hv⟩, rfl, ⟨rfl, (by decide : (-1 : Int) ≠ 2147483647)⟩, hv⟩
          | unknown h => exact absurd hn h
          | known _ _ h => exact absurd hn h
      · left
        refine ⟨.inr ⟨i, is, hsp, hn⟩, ?_⟩
        intro p hp hl
        cases hp
        exact hn ((completes_unnamed hne hci).1 hl.1)
    cases hc with
    | one h => exact key _ _ _ _ rfl h rfl
    | @cons i o is taken os h t =>
      refine key _ _ _ _ rfl ?_ rfl
      cases is with
      | nil => cases t
      | cons => exact h

end Cmdline

/-- **C22, exactly.** An option that takes at most one value, written without one at the front of a command line, gets the value that the next token offers - unless
there is no next token, or it is the terminator or an option. -/
theorem C22_exact (c : Cmdline) (hs : c.styleParser = none) (hne : ∀ d ∈ c.desc, ∀ name, name ≠ [] → reportedKey d name ≠ [])
    (tok : Str) (rest : List Str) (hlen : (tok :: rest).length < 2147483648) (name : Str) (tokens : List Str) (hsp : Spells c tok [⟨name, [], tokens⟩]) (h0 : name ≠ [])
    (d : OptionDesc) (hd : Denotes c name d) (hk : Denotes c (reportedKey d name) d) (hmin : d.semantic.minTokens = 0) (hmax : d.semantic.maxTokens = 1)
    (res : List Opt) (h : c.run (tok :: rest) = .ok res) :
    ∃ o res', res = o :: res' ∧ o.stringKey = reportedKey d name ∧
      (o.value = [] ↔ rest = [] ∨ ∃ t r, rest = t :: r ∧ Closes c t) ∧
      ∀ v, o.value = [v] ↔ ∃ t r, rest = t :: r ∧ Offers c t v := by
  obtain ⟨os, os', hr, hg, hl⟩ := (C61_grammar c hs hne _ hlen res).1 h
  have hk0 : reportedKey d name ≠ [] := hne d (Cmdline.denotes_mem hd) name h0
  -- the option itself
  obtain ⟨more, rfl, hmore⟩ : ∃ more, os = { stringKey := reportedKey d name, value := [], originalTokens := tokens } :: more ∧ Reads c rest more := by
    generalize ha : tok :: rest = args at hr
    cases hr with
    | nil => cases ha
    | plain hp _ _ => cases ha; exact (Cmdline.plain_not_spells hp hsp).elim
    | terminator hu => cases ha; exact (Cmdline.terminator_not_spells hu hsp).elim
    | @option tok' items taken os rest' more hsp' hc ht =>
      rw [List.cons_append] at ha
      injection ha with e1 e2
      subst e1
      have := (C61_token c tok).2 _ _ hsp hsp'
      subst this
      cases hc with
      | one hc =>
        cases hc with
        | nameless h => exact absurd h h0
        | unknown _ hn => exact (Cmdline.denotes_not_unknown hd hn).elim
        | known d' _ _ hd' hlen' _ _ =>
          cases Cmdline.denotes_unique hd hd'
          have : taken = [] := by
            rw [hmin] at hlen'
            exact List.length_eq_zero_iff.1 (by simpa using hlen')
          subst this
          refine ⟨more, by simp, ?_⟩
          rw [e2]
          exact ht
      | cons _ t => cases t
  have hroom : HasRoom d { stringKey := reportedKey d name, value := [], originalTokens := tokens } := ⟨by omega, by rw [hmax]; exact Nat.one_pos⟩
  -- what it takes
  obtain ⟨ps, more', os2, rfl, rfl, hp, hm⟩ : ∃ ps more' os2, more = ps ++ more' ∧
      os' = { stringKey := reportedKey d name, value := ps.flatMap (·.value), originalTokens := tokens ++ ps.flatMap (·.originalTokens) } :: os2 ∧ (∀ p ∈ ps, Spec.Loose p) ∧
      (ps.length = 1 ∨ ps.length < 1 ∧ ∀ p, more'.head? = some p → ¬ Spec.Loose p) := by
    generalize ha : ({ stringKey := reportedKey d name, value := [], originalTokens := tokens } : Opt) :: more = args at hg
    cases hg with
    | nil => cases ha
    | positional h => cases ha; exact absurd h hk0
    | keep h hr _ =>
      cases ha
      rcases hr with hr | ⟨d', hd', hr⟩
      · exact (Cmdline.denotes_not_unknown hk hr).elim
      · cases Cmdline.denotes_unique hk hd'; exact absurd hroom hr
    | @take o ps os os2 d' h hd' hr hp hmx t =>
      injection ha with e1 e2
      subst e1
      cases Cmdline.denotes_unique hk hd'
      rw [hmax] at hmx
      exact ⟨ps, os, os2, e2, by simp, hp, by simpa using hmx⟩
  -- numbering changes nothing
  obtain ⟨o, res', rfl, hok, hov⟩ : ∃ o res', res = o :: res' ∧ o.stringKey = reportedKey d name ∧ o.value = ps.flatMap (·.value) := by
    cases hl with
    | named h t => exact ⟨_, _, rfl, rfl, rfl⟩
    | positional _ hx => exact absurd hx hk0
  refine ⟨o, res', rfl, hok, ?_⟩
  rw [hov]
  rcases Cmdline.reads_first hne hmore with ⟨rfl, e⟩ | ⟨t, r, rfl, ⟨hc, hf⟩ | ⟨v, p, ps', ho, e, hlo, hv⟩⟩
  · obtain ⟨rfl, rfl⟩ : ps = [] ∧ more' = [] := by simpa using e
    simp
  · have : ps = [] := by
      cases ps with
      | nil => rfl
      | cons p ps => exact absurd (hp p (by simp)) (hf p rfl)
    subst this
    refine ⟨⟨fun _ => .inr ⟨t, r, rfl, hc⟩, fun _ => rfl⟩, fun v => ⟨(fun h => nomatch h), ?_⟩⟩
    rintro ⟨_, _, e, ho⟩
    cases e
    exact (Cmdline.closes_offers hc ho).elim
  · have : ps = [p] := by
      cases ps with
      | nil =>
        rcases hm with hm | ⟨_, hm⟩
        · cases hm
        · rw [List.nil_append] at e
          exact absurd hlo (hm p (by rw [e]; rfl))
      | cons q qs =>
        rw [List.cons_append] at e
        injection e with e1 e2
        subst e1
        have : qs = [] := by
          rcases hm with hm | ⟨hm, _⟩
          · simpa using hm
          · simp at hm
        rw [this]
    subst this
    have hval : [p].flatMap (·.value) = [v] := by simpa using hv
    rw [hval]
    refine ⟨⟨(fun h => nomatch h), ?_⟩, fun v' => ⟨?_, ?_⟩⟩
    · rintro (h | ⟨_, _, h, hc⟩)
      · cases h
      · cases h; exact (Cmdline.closes_offers hc ho).elim
    · intro h; cases h; exact ⟨t, r, rfl, ho⟩
    · rintro ⟨_, _, h, ho'⟩
      cases h
      rcases ho with ⟨hp1, _, rfl⟩ | ⟨i, hs1, _, hv1⟩ <;> rcases ho' with ⟨hp2, _, rfl⟩ | ⟨i', hs2, _, hv2⟩
      · rfl
      · exact (Cmdline.plain_not_spells hp1 hs2).elim
      · exact (Cmdline.plain_not_spells hp2 hs1).elim
      · cases (C61_token c t).2 _ _ hs1 hs2
        rw [hv1] at hv2
        exact hv2

/-- `--foo 3`: the value is 3; `--foo -- 3` and `--foo --foo`: none. -/
example : (∀ o res', ({ desc := [C22_implicit] } : Cmdline).run [Test.L "--foo", Test.L "3"] = .ok (o :: res') → o.value = [Test.L "3"]) ∧
    ({ desc := [C22_implicit] } : Cmdline).run [Test.L "--foo", Test.L "--", Test.L "3"] =
      .ok [{ stringKey := Test.L "foo", originalTokens := [Test.L "--foo"] }, { value := [Test.L "3"], originalTokens := [Test.L "3"], positionKey := 0 }] ∧
    ({ desc := [C22_implicit] } : Cmdline).run [Test.L "--foo", Test.L "--=3"] =
      .ok [{ stringKey := Test.L "foo", value := [Test.L "3"], originalTokens := [Test.L "--foo", Test.L "--=3"] }] :=
  ⟨by intro o r h; cases h; rfl, rfl, rfl⟩

example : Spells { desc := [C22_implicit] } (Test.L "--foo") [⟨Test.L "foo", [], [Test.L "--foo"]⟩] :=
  .long (Test.L "foo") (fun _ h => nomatch h) rfl rfl (by decide) (by decide)

end PO
