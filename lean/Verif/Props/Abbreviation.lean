import Verif.Props.Written
/-
C144: a longer abbreviation means the same option.
-/
namespace PO
open Spec

theorem fold_nil_iff (b : Bool) (s : Str) : fold b s = [] ↔ s = [] := by
  cases b <;> simp [fold]

theorem toLower_dash (c : Char) : c.toLower = '-' ↔ c = '-' := by
  constructor
  · intro h
    unfold Char.toLower at h
    split at h
    · rename_i hc
      exfalso
      have h3 := congrArg Char.val h
      have h3 : c.val + ('a'.val - 'A'.val) = '-'.val := h3
      have h4 := congrArg UInt32.toNat h3
      have h1 : 65 ≤ c.val.toNat := by simpa using UInt32.le_iff_toNat_le.1 hc.1
      have h2 : c.val.toNat ≤ 90 := by simpa using UInt32.le_iff_toNat_le.1 hc.2
      rw [UInt32.toNat_add] at h4
      have e1 : ('a'.val - 'A'.val).toNat = 32 := by decide
      have e2 : '-'.val.toNat = 45 := by decide
      rw [e1, e2] at h4
      omega
    · exact h
  · rintro rfl; rfl

theorem fold_head_dash (b : Bool) (s : Str) : (fold b s).head? = some '-' ↔ s.head? = some '-' := by
  cases b
  · rfl
  · cases s with
    | nil => rfl
    | cons c s => simp [fold, toLower_dash]

/-- Who matches a longer abbreviation matches the shorter one. -/
theorem abbreviates {e : OptionDesc} {p q : Str} {li si : Bool} (hp : fold li p <+: fold li q) (hs : fold si e.shortName ≠ fold li q)
    (h : Exact e q li si ∨ Approximate e q true li) : Approximate e p true li := by
  rcases h with (⟨n, hn, h0, hq⟩ | h) | ⟨n, hn, h0, h⟩
  · exact ⟨n, hn, h0, .inl ⟨rfl, hq ▸ hp⟩⟩
  · exact absurd h hs
  · rcases h with ⟨-, h⟩ | ⟨stem, e1, h⟩
    · exact ⟨n, hn, h0, .inl ⟨rfl, hp.trans h⟩⟩
    · rcases List.prefix_or_prefix_of_prefix hp h with h1 | h1
      · exact ⟨n, hn, h0, .inl ⟨rfl, by rw [e1]; exact h1.trans (List.prefix_append _ _)⟩⟩
      · exact ⟨n, hn, h0, .inr ⟨stem, e1, h1⟩⟩

/-- Long names do not begin with a dash, short ones do. -/
def Spec.DashesApart (c : Cmdline) : Prop :=
  ∀ d ∈ c.desc, (∀ n ∈ d.longNames, n.head? ≠ some '-') ∧ (d.shortName = [] ∨ d.shortName.head? = some '-')

theorem short_apart {c : Cmdline} (h : DashesApart c) {d : OptionDesc} {n : Str} (hd : d ∈ c.desc) (hn : n ∈ d.longNames) {li si : Bool} {q : Str} (hq : fold li q <+: fold li n)
    (h0 : q ≠ []) : ∀ e ∈ c.desc, fold si e.shortName ≠ fold li q := by
  intro e he eq
  have h0 : fold li q ≠ [] := fun h => h0 ((fold_nil_iff _ _).1 h)
  rcases (h e he).2 with h1 | h1
  · exact h0 (by rw [← eq, h1]; cases si <;> rfl)
  · have h2 : (fold li q).head? = some '-' := by rw [← eq]; exact (fold_head_dash _ _).2 h1
    refine (h d hd).1 n hn ((fold_head_dash li n).1 ?_)
    obtain ⟨t, ht⟩ := hq
    rw [← ht]
    cases hh : fold li q with
    | nil => exact absurd hh h0
    | cons a b => rw [hh] at h2; exact h2

/-- Among the candidates for a longer abbreviation there is only the one for the shorter. -/
theorem candidates_longer (opts : List OptionDesc) (li si : Bool) (d : OptionDesc) (n : Str) (hn : n ∈ d.longNames) (p q : Str) (hq0 : q ≠ [])
    (hs : ∀ e ∈ opts, fold si e.shortName ≠ fold li q) (he : exacts opts p li si = []) (hap : approximates opts p true li si = [d])
    (hpq : fold li p <+: fold li q) (hqn : fold li q <+: fold li n) :
    exacts opts q li si = [d] ∨ exacts opts q li si = [] ∧ approximates opts q true li si = [d] := by
  have hn0 : n ≠ [] := by
    rintro rfl
    rw [show fold li [] = [] by cases li <;> rfl, List.prefix_nil] at hqn
    exact hq0 ((fold_nil_iff _ _).1 hqn)
  have hdq : Approximate d q true li := ⟨n, hn, hn0, .inl ⟨rfl, hqn⟩⟩
  -- whoever matches `q` is `d`
  have hcover : ∀ (P : OptionDesc → Bool), (∀ e ∈ opts, P e = true → Exact e q li si ∨ Approximate e q true li) → opts.filter P = if P d then [d] else [] := by
    intro P hP
    have h1 : opts.filter P = (approximates opts p true li si).filter P := by
      unfold approximates
      rw [List.filter_filter]
      refine List.filter_congr fun e he' => ?_
      cases hPe : P e with
      | false => simp
      | true =>
        have h2 := abbreviates hpq (hs e he') (hP e he' hPe)
        have h3 : ¬ Exact e p li si := by
          intro h
          have : e ∈ exacts opts p li si := List.mem_filter.2 ⟨he', by simpa using h⟩
          rw [he] at this
          exact nomatch this
        simp [h2, h3]
    rw [h1, hap]
    cases hPd : P d <;> simp [hPd]
  by_cases hdx : Exact d q li si
  · left
    unfold exacts
    rw [hcover _ (fun e _ h => .inl (by simpa using h))]
    simp [hdx]
  · right
    constructor
    · unfold exacts
      rw [hcover _ (fun e _ h => .inl (by simpa using h))]
      simp [hdx]
    · unfold approximates
      rw [hcover _ (fun e _ h => by simp only [decide_eq_true_eq] at h; exact .inr h.2)]
      simp [hdx, hdq]

/-- **C144.** If `p` is accepted as an abbreviation of a long name `n` of an option, so is every longer beginning of `n`, up to `n` itself, for the same
option. Letter case does not matter where it does not matter for the names. -/
theorem C144_longer (c : Cmdline) (hg : Enabled c Style.allowGuessing) (ha : DashesApart c) (d : OptionDesc) (n : Str) (hn : n ∈ d.longNames) (p q : Str)
    (h0 : p ≠ []) (hd : Denotes c p d) (hx : ¬ Exact d p (active c.style Style.longCaseInsensitive) (active c.style Style.shortCaseInsensitive))
    (hpq : fold (active c.style Style.longCaseInsensitive) p <+: fold (active c.style Style.longCaseInsensitive) q)
    (hqn : fold (active c.style Style.longCaseInsensitive) q <+: fold (active c.style Style.longCaseInsensitive) n) : Denotes c q d := by
  have hmem := hd.mem
  unfold Denotes at hd ⊢
  dsimp only at hd ⊢
  have hg : active c.style Style.allowGuessing = true := hg
  rw [hg] at hd ⊢
  generalize active c.style Style.longCaseInsensitive = li at *
  generalize active c.style Style.shortCaseInsensitive = si at *
  have hq0 : q ≠ [] := by
    rintro rfl
    rw [show fold li [] = [] by cases li <;> rfl, List.prefix_nil] at hpq
    exact h0 ((fold_nil_iff _ _).1 hpq)
  obtain ⟨he, hap⟩ : exacts c.desc p li si = [] ∧ approximates c.desc p true li si = [d] := by
    rcases hd with h | h
    · have : d ∈ exacts c.desc p li si := by rw [h]; simp
      exact absurd (by simpa using (List.mem_filter.1 this).2) hx
    · exact h
  exact candidates_longer c.desc li si d n hn p q hq0 (short_apart ha hmem hn hqn hq0) he hap hpq hqn

/-- **C144, the lookup.** If a lookup finds an option by an abbreviation `p` of its long name `n`, it finds it by every longer beginning of `n`. -/
theorem C144_lookup (opts : List OptionDesc) (li si : Bool) (ha : DashesApart { desc := opts }) (d : OptionDesc) (n : Str) (hn : n ∈ d.longNames) (p q : Str) (h0 : p ≠ [])
    (hd : findNothrow opts p true li si = .ok (some d)) (hx : ¬ Exact d p li si) (hpq : fold li p <+: fold li q) (hqn : fold li q <+: fold li n) :
    findNothrow opts q true li si = .ok (some d) := by
  have hq0 : q ≠ [] := by
    rintro rfl
    rw [show fold li [] = [] by cases li <;> rfl, List.prefix_nil] at hpq
    exact h0 ((fold_nil_iff _ _).1 hpq)
  obtain ⟨he, hap⟩ : exacts opts p li si = [] ∧ approximates opts p true li si = [d] := by
    rw [C01_lookup_decision] at hd
    cases he : exacts opts p li si with
    | cons e es =>
      exfalso
      rw [he] at hd
      cases es with
      | cons => exact nomatch hd
      | nil =>
        cases hd
        have : d ∈ exacts opts p li si := by rw [he]; simp
        exact hx (by simpa using (List.mem_filter.1 this).2)
    | nil =>
      rw [he] at hd
      cases hap : approximates opts p true li si with
      | nil => rw [hap] at hd; exact nomatch hd
      | cons e es =>
        rw [hap] at hd
        cases es with
        | cons => exact nomatch hd
        | nil => cases hd; exact ⟨rfl, rfl⟩
  have hmem : d ∈ opts := (List.mem_filter.1 (by rw [hap]; simp : d ∈ approximates opts p true li si)).1
  rw [C01_lookup_decision]
  rcases candidates_longer opts li si d n hn p q hq0 (short_apart (c := { desc := opts }) ha hmem hn hqn hq0) he hap hpq hqn with h | ⟨h, h'⟩
  · rw [h]
  · rw [h, h']

theorem least_of {P : Nat → Prop} (h : ∃ k, P k) : ∃ k, P k ∧ ∀ j, P j → k ≤ j := by
  obtain ⟨k, hk⟩ := h
  induction k using Nat.strongRecOn with
  | _ k ih =>
    by_cases hl : ∃ j, j < k ∧ P j
    · obtain ⟨j, hj, hp⟩ := hl
      exact ih j hj hp
    · exact ⟨k, hk, fun j hj => Nat.le_of_not_lt fun h => hl ⟨j, h, hj⟩⟩

/-- **C144, the shortest.** If a long name gives its option, and no other name of the option is a beginning of it, there is a shortest abbreviation: the
beginnings that give the option are exactly those that are as long or longer. -/
theorem C144_shortest (c : Cmdline) (hg : Enabled c Style.allowGuessing) (ha : DashesApart c) (d : OptionDesc) (n : Str) (hn : n ∈ d.longNames) (h0 : n ≠ [])
    (hd : Denotes c n d)
    (hown : ∀ m ∈ d.longNames, m ≠ [] → fold (active c.style Style.longCaseInsensitive) m <+: fold (active c.style Style.longCaseInsensitive) n → m.length = n.length) :
    ∃ k, 1 ≤ k ∧ k ≤ n.length ∧ ∀ j, 1 ≤ j → j ≤ n.length → (Denotes c (n.take j) d ↔ k ≤ j) := by
  have hex : ∃ k, 1 ≤ k ∧ k ≤ n.length ∧ Denotes c (n.take k) d :=
    ⟨n.length, by cases n with | nil => exact absurd rfl h0 | cons => simp, Nat.le_refl _, by rw [List.take_length]; exact hd⟩
  obtain ⟨k, ⟨h1, h2, h3⟩, hmin⟩ := least_of hex
  refine ⟨k, h1, h2, fun j hj hjn => ⟨fun h => hmin j ⟨hj, hjn, h⟩, fun hkj => ?_⟩⟩
  rcases Nat.eq_or_lt_of_le hkj with rfl | hlt
  · exact h3
  have hfold : ∀ i, fold (active c.style Style.longCaseInsensitive) (n.take i) = (fold (active c.style Style.longCaseInsensitive) n).take i := by
    intro i; unfold fold; split <;> simp
  have hlen : ∀ b (s : Str), (fold b s).length = s.length := by intro b s; cases b <;> simp [fold]
  refine C144_longer c hg ha d n hn (n.take k) (n.take j) ?_ h3 ?_ ?_ ?_
  · intro h; rcases List.take_eq_nil_iff.1 h with h | h
    · omega
    · exact h0 h
  · rintro (⟨m, hm, hm0, e⟩ | e)
    · have := hown m hm hm0 (by rw [e, hfold]; exact List.take_prefix _ _)
      have e' := congrArg List.length e
      rw [hlen, hlen, List.length_take] at e'
      omega
    · exact short_apart ha hd.mem hn (by rw [hfold]; exact List.take_prefix _ _) (fun h => by
        rcases List.take_eq_nil_iff.1 h with h | h
        · omega
        · exact h0 h) d hd.mem e
  · rw [hfold, hfold]
    exact List.take_prefix_take_left hkj
  · rw [hfold]; exact List.take_prefix _ _

/-- The same of lookups: the beginnings of a long name by which a lookup finds its option are those of a certain length or longer. -/
theorem C144_lookup_shortest (opts : List OptionDesc) (li si : Bool) (ha : DashesApart { desc := opts }) (d : OptionDesc) (hmem : d ∈ opts) (n : Str)
    (hn : n ∈ d.longNames) (h0 : n ≠ []) (hd : findNothrow opts n true li si = .ok (some d))
    (hown : ∀ m ∈ d.longNames, m ≠ [] → fold li m <+: fold li n → m.length = n.length) :
    ∃ k, 1 ≤ k ∧ k ≤ n.length ∧ ∀ j, 1 ≤ j → j ≤ n.length → (findNothrow opts (n.take j) true li si = .ok (some d) ↔ k ≤ j) := by
  have hex : ∃ k, 1 ≤ k ∧ k ≤ n.length ∧ findNothrow opts (n.take k) true li si = .ok (some d) :=
    ⟨n.length, by cases n with | nil => exact absurd rfl h0 | cons => simp, Nat.le_refl _, by rw [List.take_length]; exact hd⟩
  obtain ⟨k, ⟨h1, h2, h3⟩, hmin⟩ := least_of hex
  refine ⟨k, h1, h2, fun j hj hjn => ⟨fun h => hmin j ⟨hj, hjn, h⟩, fun hkj => ?_⟩⟩
  rcases Nat.eq_or_lt_of_le hkj with rfl | hlt
  · exact h3
  have hfold : ∀ i, fold li (n.take i) = (fold li n).take i := by
    intro i; unfold fold; split <;> simp
  have hlen : ∀ b (s : Str), (fold b s).length = s.length := by intro b s; cases b <;> simp [fold]
  have hk0 : n.take k ≠ [] := by
    intro h
    rcases List.take_eq_nil_iff.1 h with h | h
    · omega
    · exact h0 h
  refine C144_lookup opts li si ha d n hn (n.take k) (n.take j) hk0 h3 ?_ ?_ ?_
  · rintro (⟨m, hm, hm0, e⟩ | e)
    · have := hown m hm hm0 (by rw [e, hfold]; exact List.take_prefix _ _)
      have e' := congrArg List.length e
      rw [hlen, hlen, List.length_take] at e'
      omega
    · exact short_apart (c := { desc := opts }) ha hmem hn (by rw [hfold]; exact List.take_prefix _ _) hk0 d hmem e
  · rw [hfold, hfold]
    exact List.take_prefix_take_left hkj
  · rw [hfold]; exact List.take_prefix _ _

/-- **C144, command lines.** An abbreviation can be replaced by a longer one, or by the name, anywhere an option may start, with or without a value in the
token: the command line is accepted or refused as before, and means the same. -/
theorem C144_command_line (c : Cmdline) (hs : c.styleParser = none) (hl : Enabled c Style.allowLong) (hg : Enabled c Style.allowGuessing) (ha : DashesApart c)
    (pre rest : List Str) (r : List Opt) (hpre : c.run pre = .ok r) (hdash : ['-', '-'] ∉ pre) (d : OptionDesc) (n : Str) (hn : n ∈ d.longNames)
    (hfirst : ∀ m, d.longNames.head? = some m → m ≠ [] ∧ '*' ∉ m) (p q : Str) (h0 : p ≠ []) (hp : '=' ∉ p) (hq : '=' ∉ q) (hd : Denotes c p d)
    (hx : ¬ Exact d p (active c.style Style.longCaseInsensitive) (active c.style Style.shortCaseInsensitive))
    (hpq : fold (active c.style Style.longCaseInsensitive) p <+: fold (active c.style Style.longCaseInsensitive) q)
    (hqn : fold (active c.style Style.longCaseInsensitive) q <+: fold (active c.style Style.longCaseInsensitive) n) (value : Str)
    (hval : value = [] ∨ ∃ v, v ≠ [] ∧ value = '=' :: v) (hu : Unclaimed c ('-' :: '-' :: p ++ value)) (hu' : Unclaimed c ('-' :: '-' :: q ++ value)) :
    meaning (c.run (pre ++ ('-' :: '-' :: p ++ value) :: rest)) = meaning (c.run (pre ++ ('-' :: '-' :: q ++ value) :: rest)) := by
  have hdq := C144_longer c hg ha d n hn p q h0 hd hx hpq hqn
  have hq0 : q ≠ [] := by
    rintro rfl
    rw [show ∀ b, fold b ([] : Str) = [] from fun b => by cases b <;> rfl, List.prefix_nil] at hpq
    exact h0 ((fold_nil_iff _ _).1 hpq)
  have hkey : ∀ x, reportedKey d x = d.longNames.headD [] := by
    intro x
    unfold reportedKey
    cases hh : d.longNames with
    | nil => rw [hh] at hn; exact nomatch hn
    | cons m ms => simp [(hfirst m (by rw [hh]; rfl)).2]
  have hne : reportedKey d p ≠ [] := by
    rw [hkey]
    cases hh : d.longNames with
    | nil => rw [hh] at hn; exact nomatch hn
    | cons m ms => exact (hfirst m (by rw [hh]; rfl)).1
  rcases hval with rfl | ⟨v, hv, rfl⟩
  · rw [List.append_nil] at *
    rw [List.append_nil] at *
    exact C107_written c hs pre rest r hpre hdash _ _ p q [] _ _ d (.long p hu hl rfl hp h0) (.long q hu' hl rfl hq hq0) h0 hq0 hd hdq (by rw [hkey, hkey]) hne
  · exact C107_written c hs pre rest r hpre hdash _ _ p q [v] _ _ d (.longEq p v hu hl rfl hp hv) (.longEq q v hu' hl rfl hq hv) h0 hq0 hd hdq (by rw [hkey, hkey]) hne

def abbreviatedExample : Cmdline :=
  { desc := [Test.od "verbose" (Test.sem Test.vstr), Test.od "verify" (Test.sem Test.vstr), Test.od "ver" (Test.sem Test.vstr)] }

/-- `verb` gives `verbose`, and so does `verbos`; `ver` is another option, and `ve` is ambiguous: the shortest abbreviation has four letters. -/
example : Denotes abbreviatedExample (str% "verb") (Test.od "verbose" (Test.sem Test.vstr)) ∧
    ¬ Exact (Test.od "verbose" (Test.sem Test.vstr)) (str% "verb") false false ∧
    meaning (abbreviatedExample.run [str% "--verb=x"]) = some [(str% "verbose", [str% "x"], -1, false, false)] ∧
    meaning (abbreviatedExample.run [str% "--verbos=x"]) = some [(str% "verbose", [str% "x"], -1, false, false)] ∧
    meaning (abbreviatedExample.run [str% "--ver=x"]) = some [(str% "ver", [str% "x"], -1, false, false)] ∧
    meaning (abbreviatedExample.run [str% "--ve=x"]) = none :=
  ⟨.inr ⟨rfl, rfl⟩, by decide, by rfl, by rfl, by rfl, by rfl⟩

/-- The long names do not begin with dashes. -/
example : DashesApart abbreviatedExample := by
  intro d hd
  simp only [abbreviatedExample, List.mem_cons, List.not_mem_nil, or_false] at hd
  rcases hd with rfl | rfl | rfl <;> exact ⟨by decide, by decide⟩

/-- Why another name of the same option must not be a beginning: `ver` and `verily` are names of one option here, and `ver` gives it, but `veri` is ambiguous
with `verify`, and only `veril` gives it again. -/
example : ∃ c : Cmdline, meaning (c.run [str% "--ver=x"]) = some [(str% "verily", [str% "x"], -1, false, false)] ∧ meaning (c.run [str% "--veri=x"]) = none ∧
    meaning (c.run [str% "--veril=x"]) = some [(str% "verily", [str% "x"], -1, false, false)] :=
  ⟨{ desc := [Test.od "verily,ver" (Test.sem Test.vstr), Test.od "verify" (Test.sem Test.vstr)] }, by rfl, by rfl, by rfl⟩

/-- By `verb` the lookup finds `verbose`, by the name `ver` of another option it does not. -/
example : (findNothrow abbreviatedExample.desc (str% "verb") true false false).toOption.map (·.map (·.longNames)) = some (some [str% "verbose"]) ∧
    (findNothrow abbreviatedExample.desc (str% "ver") true false false).toOption.map (·.map (·.longNames)) = some (some [str% "ver"]) ∧
    (findNothrow abbreviatedExample.desc (str% "ve") true false false).toOption.isNone := ⟨rfl, rfl, rfl⟩

end PO
