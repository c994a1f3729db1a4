import Verif.Spec.Verbatim
import Verif.Props.Grammar
/-
C71: values and original tokens are text of the command line.
-/
namespace PO
open Spec

/-- Options whose values and tokens are text of `args`. -/
def Faithful (c : Cmdline) (args : List Str) (o : Opt) : Prop :=
  (∀ v ∈ o.value, Quoted c args v) ∧ ∀ t ∈ o.originalTokens, OnRecord c args t

theorem Spec.Quoted.mono {c : Cmdline} {args args' : List Str} {v : Str} (h : Quoted c args v) (hs : ∀ a ∈ args, a ∈ args') : Quoted c args' v := by
  cases h with
  | token h => exact .token (hs _ h)
  | afterEq name h hn hv hl => exact .afterEq name (hs _ h) hn hv hl
  | afterLetters lead letters a h hv hs' ha hd => exact .afterLetters lead letters a (hs _ h) hv hs' ha hd
  | additional f tok hf h hv e => exact .additional f tok hf (hs _ h) hv e

theorem Spec.OnRecord.mono {c : Cmdline} {args args' : List Str} {t : Str} (h : OnRecord c args t) (hs : ∀ a ∈ args, a ∈ args') : OnRecord c args' t := by
  cases h with
  | token h => exact .token (hs _ h)
  | disguised lead rest h hl hd e => exact .disguised lead rest (hs _ h) hl hd e

theorem Faithful.mono {c : Cmdline} {args args' : List Str} {o : Opt} (h : Faithful c args o) (hs : ∀ a ∈ args, a ∈ args') : Faithful c args' o :=
  ⟨fun v hv => (h.1 v hv).mono hs, fun t ht => (h.2 t ht).mono hs⟩

/-- As `Quoted`, for an option written with the name `name`, declared or not. -/
def QuotedAs (c : Cmdline) (args : List Str) (name v : Str) : Prop :=
  Quoted c args v ∨ ∃ lead letters a, name = ['-', a] ∧ lead :: letters ++ a :: v ∈ args ∧ v ≠ [] ∧ Enabled c Style.allowShort ∧
    (lead = '-' ∧ (letters ++ [a]).head? ≠ some '-' ∧ Enabled c Style.allowDashForShort ∨ lead = '/' ∧ letters = [] ∧ Enabled c Style.allowSlashForShort)

theorem QuotedAs.mono {c : Cmdline} {args args' : List Str} {name v : Str} (h : QuotedAs c args name v) (hs : ∀ a ∈ args, a ∈ args') :
    QuotedAs c args' name v := by
  rcases h with h | ⟨lead, letters, a, h1, h2, h3⟩
  · exact .inl (h.mono hs)
  · exact .inr ⟨lead, letters, a, h1, hs _ h2, h3⟩

/-- The letters of a group and the value after them are the end of the token. -/
theorem group_text {c : Cmdline} {tok t : Str} {items : List Item} (h : Group c tok t items) :
    ∀ i ∈ items, (∀ v ∈ i.value, v ≠ [] ∧ ∃ letters a, i.name = ['-', a] ∧ t = letters ++ a :: v) ∧ ∀ x ∈ i.tokens, x = tok := by
  induction h with
  | last a h =>
    intro i hi
    rw [List.mem_singleton] at hi
    subst hi
    exact ⟨nofun, fun x hx => by simpa using hx⟩
  | value a v hv h hs =>
    intro i hi
    rw [List.mem_singleton] at hi
    subst hi
    refine ⟨fun w hw => ?_, fun x hx => by simpa using hx⟩
    rw [List.mem_singleton] at hw
    subst hw
    exact ⟨hv, [], a, rfl, rfl⟩
  | switch a t items ht h g ih =>
    intro i hi
    rcases List.mem_cons.1 hi with rfl | hi
    · exact ⟨nofun, nofun⟩
    · obtain ⟨h1, h2⟩ := ih i hi
      refine ⟨fun v hv => ?_, h2⟩
      obtain ⟨h3, letters, b, e', e⟩ := h1 v hv
      exact ⟨h3, a :: letters, b, e', by rw [e]; rfl⟩

theorem spells_text {c : Cmdline} {tok : Str} {items : List Item} (h : Spells c tok items) :
    ∀ i ∈ items, (∀ v ∈ i.value, QuotedAs c [tok] i.name v) ∧ ∀ t ∈ i.tokens, OnRecord c [tok] t := by
  have mem : tok ∈ [tok] := by simp
  cases h with
  | additional f hf hn =>
    intro i hi
    rw [List.mem_singleton] at hi
    subst hi
    refine ⟨fun v hv => ?_, nofun⟩
    dsimp only at hv
    split at hv
    · cases hv
    · rename_i h0
      rw [List.mem_singleton] at hv
      subst hv
      exact .inl (.additional f tok hf mem h0 rfl)
  | long name hu hs ht hn h0 =>
    intro i hi
    rw [List.mem_singleton] at hi
    subst hi
    exact ⟨nofun, fun t h => .token (by simpa using h)⟩
  | longEq name v hu hs ht hn hv =>
    intro i hi
    rw [List.mem_singleton] at hi
    subst hi
    refine ⟨fun w hw => ?_, fun t h => .token (by simpa using h)⟩
    rw [List.mem_singleton] at hw
    subst hw
    exact .inl (.afterEq ('-' :: '-' :: name) (by rw [ht]; simp) (by simpa using hn) hv (.inl ⟨⟨name, rfl⟩, hs⟩))
  | disguised lead name d hu hs ht hl hn hd =>
    intro i hi
    rw [List.mem_singleton] at hi
    subst hi
    refine ⟨nofun, fun t h => ?_⟩
    rw [List.mem_singleton] at h
    exact .disguised lead name (by rw [ht]; simp) (hl.2.imp (·.1) (·.1)) hs h
  | disguisedEq lead name v d hu hs ht hl hn hv hd =>
    intro i hi
    rw [List.mem_singleton] at hi
    subst hi
    have hlead : lead = '-' ∨ lead = '/' := hl.2.imp (·.1) (·.1)
    refine ⟨fun w hw => ?_, fun t h => ?_⟩
    · rw [List.mem_singleton] at hw
      subst hw
      refine .inl (.afterEq (lead :: name) (by rw [ht]; simp) ?_ hv (.inr ⟨?_, hs⟩))
      · simp only [List.mem_cons, not_or]
        exact ⟨by rcases hlead with e | e <;> rw [e] <;> decide, hn⟩
      · rcases hlead with e | e <;> rw [e] <;> simp
    · rw [List.mem_singleton] at h
      exact .disguised lead (name ++ '=' :: v) (by rw [ht]; simp) hlead hs h
  | short a t _ hu hs ht ha hd hg =>
    intro i hi
    obtain ⟨h1, h2⟩ := group_text hg i hi
    refine ⟨fun v hv => ?_, fun x hx => .token (by rw [h2 x hx]; simp)⟩
    obtain ⟨h3, letters, b, hb, e⟩ := h1 v hv
    refine .inr ⟨'-', letters, b, hb, by rw [ht, e]; simp, h3, hs.1, .inl ⟨rfl, ?_, hs.2⟩⟩
    cases letters with
    | nil => cases e; simpa using ha
    | cons y ys => cases e; simpa using ha
  | slash a t hu hs ht hd =>
    intro i hi
    rw [List.mem_singleton] at hi
    subst hi
    refine ⟨fun v hv => ?_, fun x hx => .token (by simpa using hx)⟩
    dsimp only at hv
    split at hv
    · cases hv
    · rename_i h0
      rw [List.mem_singleton] at hv
      subst hv
      exact .inr ⟨'/', [], a, rfl, by rw [ht]; simp, h0, hs.1, .inr ⟨rfl, rfl, hs.2⟩⟩

theorem completes_text {c : Cmdline} {A : List Str} {i : Item} {taken : List Str} {o : Opt} (h : Completes c i taken o)
    (hi : (∀ v ∈ i.value, QuotedAs c A i.name v) ∧ ∀ t ∈ i.tokens, OnRecord c A t) (ht : ∀ t ∈ taken, t ∈ A) : Faithful c A o := by
  have key : (i.name ≠ [] → (∃ d, Denotes c i.name d) ∨ Unknown c i.name ∧ c.allowUnregistered = true) → ∀ v ∈ i.value, Quoted c A v := by
    intro hk v hv
    rcases hi.1 v hv with h | ⟨lead, letters, a, h1, h2, h3, h4, h5⟩
    · exact h
    · rw [h1] at hk
      exact .afterLetters lead letters a h2 h3 h5 h4 (hk (by simp))
  cases h with
  | nameless h => exact ⟨key (fun h' => absurd h h'), hi.2⟩
  | unknown h hn hu => exact ⟨key (fun _ => .inr ⟨hn, hu⟩), hi.2⟩
  | known d taken h hd hlen htake hswitch =>
    have hq := key (fun _ => .inl ⟨d, hd⟩)
    refine ⟨fun v hv => ?_, fun t h => ?_⟩
    · rcases List.mem_append.1 hv with hv | hv
      · exact hq v hv
      · exact .token (ht v hv)
    · rcases List.mem_append.1 h with h | h
      · exact hi.2 t h
      · exact .token (ht t h)

theorem completesAll_text {c : Cmdline} {A : List Str} {is : List Item} {taken : List Str} {os : List Opt} (h : CompletesAll c is taken os)
    (hi : ∀ i ∈ is, (∀ v ∈ i.value, QuotedAs c A i.name v) ∧ ∀ t ∈ i.tokens, OnRecord c A t) (ht : ∀ t ∈ taken, t ∈ A) : ∀ o ∈ os, Faithful c A o := by
  induction h with
  | one h =>
    intro o ho
    rw [List.mem_singleton] at ho
    subst ho
    exact completes_text h (hi _ (by simp)) ht
  | cons h t ih =>
    intro o ho
    rcases List.mem_cons.1 ho with rfl | ho
    · exact completes_text h (hi _ (by simp)) nofun
    · exact ih (fun i h => hi i (by simp [h])) ht o ho

theorem faithful_token {c : Cmdline} {A : List Str} {t : Str} (ht : t ∈ A) (p : Int) : Faithful c A { value := [t], originalTokens := [t], positionKey := p } :=
  ⟨fun v hv => .token (by rw [List.mem_singleton] at hv; rw [hv]; exact ht), fun v hv => .token (by rw [List.mem_singleton] at hv; rw [hv]; exact ht)⟩

theorem reads_text {c : Cmdline} {args : List Str} {os : List Opt} (h : Reads c args os) : ∀ o ∈ os, Faithful c args o := by
  induction h with
  | nil => nofun
  | plain h hd t ih =>
    intro o ho
    rcases List.mem_cons.1 ho with rfl | ho
    · exact faithful_token (by simp) _
    · exact (ih o ho).mono fun a ha => by simp [ha]
  | terminator h =>
    intro o ho
    obtain ⟨t, ht, rfl⟩ := List.mem_map.1 ho
    exact faithful_token (by simp [ht]) _
  | @option tok items taken os rest more h hc t ih =>
    intro o ho
    rcases List.mem_append.1 ho with ho | ho
    · refine completesAll_text hc (fun i hi => ?_) (fun t ht => by simp [ht]) o ho
      obtain ⟨h1, h2⟩ := spells_text h i hi
      exact ⟨fun v hv => (h1 v hv).mono (fun a ha => by simp at ha; simp [ha]), fun x hx => (h2 x hx).mono (fun a ha => by simp at ha; simp [ha])⟩
    · exact (ih o ho).mono fun a ha => by simp [ha]

theorem gathers_text {c : Cmdline} {A : List Str} {os os' : List Opt} (h : Gathers c os os') (hf : ∀ o ∈ os, Faithful c A o) :
    ∀ o ∈ os', Faithful c A o := by
  induction h with
  | nil => nofun
  | positional h t ih | keep h hr t ih =>
    intro o ho
    rcases List.mem_cons.1 ho with rfl | ho
    · exact hf _ (by simp)
    · exact ih (fun o h => hf o (by simp [h])) o ho
  | @take o ps os os' d h hd hr hp hmax t ih =>
    intro o' ho'
    rcases List.mem_cons.1 ho' with rfl | ho'
    · refine ⟨fun v hv => ?_, fun x hx => ?_⟩
      · rcases List.mem_append.1 hv with hv | hv
        · exact (hf o (by simp)).1 v hv
        · obtain ⟨p, hp', hv⟩ := List.mem_flatMap.1 hv
          exact (hf p (by simp [hp'])).1 v hv
      · rcases List.mem_append.1 hx with hx | hx
        · exact (hf o (by simp)).2 x hx
        · obtain ⟨p, hp', hx⟩ := List.mem_flatMap.1 hx
          exact (hf p (by simp [hp'])).2 x hx
    · exact ih (fun o h => hf o (by simp [h])) o' ho'

theorem labels_text {c : Cmdline} {A : List Str} {n : Nat} {os res : List Opt} (h : Labels c n os res) (hf : ∀ o ∈ os, Faithful c A o) :
    ∀ o ∈ res, Faithful c A o := by
  induction h with
  | nil => nofun
  | named h t ih | positional name h hn t ih =>
    intro o ho
    rcases List.mem_cons.1 ho with rfl | ho
    · have := hf _ (List.mem_cons_self ..)
      exact ⟨this.1, this.2⟩
    · exact ih (fun o h => hf o (by simp [h])) o ho

/-- **C71.** Every value of every resulting option is text of the command line: a whole token, what follows the first equal sign of a
long option, what follows the letters of a short option, or what an additional parser made of a token. Every original token is a token
of the command line, or a disguised long option with its dashes completed. -/
theorem C71_values_are_typed (c : Cmdline) (hs : c.styleParser = none) (hne : ∀ d ∈ c.desc, ∀ name, name ≠ [] → reportedKey d name ≠ [])
    (args : List Str) (hlen : args.length < 2147483648) (res : List Opt) (h : c.run args = .ok res) (o : Opt) (ho : o ∈ res) :
    (∀ v ∈ o.value, Quoted c args v) ∧ ∀ t ∈ o.originalTokens, OnRecord c args t := by
  obtain ⟨os, os', h1, h2, h3⟩ := (C61_grammar c hs hne args hlen res).1 h
  exact labels_text h3 (gathers_text h2 (reads_text h1)) o ho

/-- A value may contain further equal signs; a group ends with a value. -/
def verbatimLine : List Str := [Test.L "--out=a=b", Test.L "-vofile", Test.L "x"]

example : ∃ res, grammarExample.run verbatimLine = .ok res ∧ res.map (·.value) = [[Test.L "a=b"], [], [Test.L "file"], [Test.L "x"]] ∧
    (∀ o ∈ res, ∀ v ∈ o.value, Quoted grammarExample verbatimLine v) := by
  refine ⟨_, rfl, rfl, fun o ho v hv => ?_⟩
  refine (C71_values_are_typed grammarExample rfl ?_ verbatimLine (by decide) _ rfl o ho).1 v hv
  refine keys_nonempty _ ?_
  intro d hd
  simp only [grammarExample, List.mem_cons, List.not_mem_nil, or_false] at hd
  rcases hd with rfl | rfl | rfl <;> decide

end PO
