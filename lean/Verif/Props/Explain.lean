import Verif.Spec.Explain
import Verif.Props.Refusal
import Verif.Props.Messages
/-
C80: what the exceptions of the command line parser say.
-/
namespace PO
open Spec

/-- No percent sign. -/
def NP (s : Str) : Prop := '%' ∉ s

namespace Cmdline

variable {c : Cmdline}

/-- No percent sign in the names of the options. -/
def NamesNP (c : Cmdline) : Prop := ∀ d ∈ c.desc, NP d.shortName ∧ ∀ n ∈ d.longNames, NP n

theorem key_np (hn : NamesNP c) {d : OptionDesc} (hd : d ∈ c.desc) {name : Str} (h : NP name) : NP (reportedKey d name) := by
  unfold reportedKey
  split
  · rename_i n e
    split
    · exact h
    · exact (hn d hd).2 n (List.mem_of_head? e)
  · exact (hn d hd).1

theorem ambiguous_np (hn : NamesNP c) {name : Str} {alts : List Str} (h : NP name) (ha : Ambiguous c name alts) :
    alts ≠ [] ∧ ∀ a ∈ alts, NP a := by
  have key : ∀ l : List OptionDesc, (∀ d ∈ l, d ∈ c.desc) → 2 ≤ l.length → alts = l.map (reportedKey · name) → alts ≠ [] ∧ ∀ a ∈ alts, NP a := by
    rintro l hl h2 rfl
    refine ⟨by cases l <;> simp at h2 ⊢, ?_⟩
    intro a ha
    obtain ⟨d, hd, rfl⟩ := List.mem_map.1 ha
    exact key_np hn (hl d hd) h
  rcases ha with ⟨h2, e⟩ | ⟨-, h2, e⟩
  · exact key _ (fun d hd => (List.mem_filter.1 hd).1) h2 e
  · exact key _ (fun d hd => (List.mem_filter.1 hd).1) h2 e

theorem ambiguousLetter_np (hn : NamesNP c) {a : Char} {alts : List Str} (h : a ≠ '%') (ha : AmbiguousLetter c a alts) :
    alts ≠ [] ∧ ∀ a ∈ alts, NP a := by
  have key : ∀ l : List OptionDesc, (∀ d ∈ l, d ∈ c.desc) → 2 ≤ l.length → alts = l.map (reportedKey · ['-', a]) → alts ≠ [] ∧ ∀ a ∈ alts, NP a := by
    rintro l hl h2 rfl
    refine ⟨by cases l <;> simp at h2 ⊢, ?_⟩
    intro x hx
    obtain ⟨d, hd, rfl⟩ := List.mem_map.1 hx
    exact key_np hn (hl d hd) (by simp [NP, Ne.symm h])
  rcases ha with ⟨h2, e⟩ | ⟨-, h2, e⟩
  · exact key _ (fun d hd => (List.mem_filter.1 hd).1) h2 e
  · exact key _ (fun d hd => (List.mem_filter.1 hd).1) h2 e

theorem denotes_desc {name : Str} {d : OptionDesc} (h : Denotes c name d) : d ∈ c.desc := by
  rcases h with h | ⟨-, h⟩
  · have : d ∈ exacts c.desc name (active c.style Style.longCaseInsensitive) (active c.style Style.shortCaseInsensitive) := by rw [h]; simp
    exact (List.mem_filter.1 this).1
  · have : d ∈ approximates c.desc name (active c.style Style.allowGuessing) (active c.style Style.longCaseInsensitive) (active c.style Style.shortCaseInsensitive) := by rw [h]; simp
    exact (List.mem_filter.1 this).1

/-- What is said about an exception. -/
structure Sayable (cls : ErrClass) (n t : Str) : Prop where
  name : NP n
  token : NP t
  alts : ∀ alts, cls = .ambiguousOption alts → t ≠ [] ∧ alts ≠ [] ∧ ∀ a ∈ alts, NP a
  plain : (∀ l, cls ≠ .configSyntax l) ∧ cls ≠ .cmdlineSyntax .unrecognizedLine ∧ (∀ k, cls ≠ .validation k)

theorem group_np {tok s : Str} {items : List Item} (h : Group c tok s items) (hs : NP s) :
    ∀ i ∈ items, NP i.name ∧ i.name ≠ [] ∧ ∀ t ∈ i.tokens, t = tok := by
  induction h with
  | last a => intro i hi; simp at hi; subst hi; simp [NP] at hs ⊢; exact hs
  | value a v => intro i hi; simp at hi; subst hi; simp [NP] at hs ⊢; exact hs.1
  | switch a t items ht h g ih =>
    intro i hi
    simp [NP] at hs
    rcases List.mem_cons.1 hi with rfl | hi
    · simp [NP, hs.1]
    · exact ih hs.2 i hi

theorem spells_np (ha : c.additional = none) {tok : Str} {items : List Item} (h : Spells c tok items) (ht : NP tok) :
    tok ≠ [] ∧ ∀ i ∈ items, NP i.name ∧ ∀ t ∈ i.tokens, NP t ∧ t ≠ [] := by
  cases h with
  | additional f hf => rw [ha] at hf; cases hf
  | long name hu hs e hn h0 =>
    subst e; refine ⟨by simp, ?_⟩
    intro i hi; simp at hi; subst hi
    simp [NP] at ht ⊢; exact ht
  | longEq name v hu hs e hn hv =>
    subst e; refine ⟨by simp, ?_⟩
    intro i hi; simp at hi; subst hi
    simp [NP] at ht ⊢; exact ⟨ht.1, ht.2⟩
  | disguised lead name d hu hs e hl hn hd =>
    subst e; refine ⟨by simp, ?_⟩
    intro i hi; simp at hi; subst hi
    simp [NP] at ht ⊢; exact ht.2
  | disguisedEq lead name v d hu hs e hl hn hv hd =>
    subst e; refine ⟨by simp, ?_⟩
    intro i hi; simp at hi; subst hi
    simp [NP] at ht ⊢; exact ⟨ht.2.1, ht.2.2⟩
  | short a t items hu hs e ha' hd hg =>
    subst e; refine ⟨by simp, ?_⟩
    intro i hi
    have hnp : NP (a :: t) := by simp [NP] at ht ⊢; exact ht
    obtain ⟨h1, h2, h3⟩ := group_np hg hnp i hi
    exact ⟨h1, fun t' ht' => by rw [h3 t' ht']; exact ⟨ht, by simp⟩⟩
  | slash a t hu hs e hd =>
    subst e; refine ⟨by simp, ?_⟩
    intro i hi; simp at hi; subst hi
    simp [NP] at ht ⊢; exact ht

theorem groupFails_np (hn : NamesNP c) {s : Str} {b : Char} {alts : List Str} (h : GroupFails c s b alts) (hs : NP s) :
    b ≠ '%' ∧ alts ≠ [] ∧ ∀ a ∈ alts, NP a := by
  induction h with
  | here h =>
    simp [NP] at hs
    exact ⟨Ne.symm hs.1, ambiguousLetter_np hn (Ne.symm hs.1) h⟩
  | switch ht h g ih => simp [NP] at hs; exact ih hs.2

theorem beforeEq_np {s : Str} (h : NP s) : NP (beforeEq s) := fun hm => h ((List.takeWhile_sublist _).mem hm)

theorem malformed_np (hn : NamesNP c) {tok : Str} {cls : ErrClass} {n t : Str} (h : Malformed c tok cls n t) (ht : NP tok) : Sayable cls n t := by
  cases h with
  | long name hu hs e hq =>
    subst e
    have : NP n := by simp [NP] at ht ⊢; exact ht
    exact ⟨this, this, nofun, nofun, nofun, nofun⟩
  | disguised lead rest alts hu hs e hl ha =>
    subst e
    refine ⟨ht, ht, ?_, nofun, nofun, nofun⟩
    intro as e; cases e
    exact ⟨by simp, ambiguous_np hn (beforeEq_np (by simp [NP] at ht ⊢; exact ht.2)) ha⟩
  | disguisedEq lead name d hu hs e hl hq hd =>
    subst e
    have : NP ('-' :: '-' :: name ++ ['=']) := by simp [NP] at ht ⊢; exact ht.2
    exact ⟨this, this, nofun, nofun, nofun, nofun⟩
  | short a r b alts hu hs e ha hd hg =>
    subst e
    obtain ⟨h1, h2, h3⟩ := groupFails_np hn hg (by simp [NP] at ht ⊢; exact ht)
    have : NP ['-', b] := by simp [NP, Ne.symm h1]
    refine ⟨this, this, ?_, nofun, nofun, nofun⟩
    intro as e; cases e
    exact ⟨by simp, h2, h3⟩

theorem blamed_np (ha : c.additional = none) {own : Str} {taken : List Str} {b : Str} (h : Blamed c own taken b) (ho : NP own ∧ own ≠ []) (ht : ∀ v ∈ taken, NP v) :
    NP b ∧ b ≠ [] := by
  cases h with
  | own => exact ho
  | last pre post b e hb h =>
    obtain ⟨items, hb⟩ := hb
    have hbn := ht b (by rw [e]; simp)
    exact ⟨hbn, (spells_np ha hb hbn).1⟩

theorem token_np {i : Item} (hi : NP i.name ∧ ∀ t ∈ i.tokens, NP t ∧ t ≠ []) (h : i.name ≠ []) : NP i.token ∧ i.token ≠ [] := by
  unfold Item.token
  cases e : i.tokens with
  | nil => exact ⟨hi.1, h⟩
  | cons t ts => exact hi.2 t (by rw [e]; simp)

theorem stuck_np (ha : c.additional = none) (hn : NamesNP c) {i : Item} {other : List Str} {cls : ErrClass} {n t : Str} (h : Stuck c i other cls n t)
    (hi : NP i.name ∧ ∀ t ∈ i.tokens, NP t ∧ t ≠ []) (ho : ∀ v ∈ other, NP v) : Sayable cls n t := by
  cases h with
  | ambiguous alts h hamb =>
    refine ⟨hi.1, (token_np hi h).1, ?_, nofun, nofun, nofun⟩
    intro as e; cases e
    exact ⟨(token_np hi h).2, ambiguous_np hn hi.1 hamb⟩
  | unknown h _ _ => exact ⟨hi.1, (token_np hi h).1, nofun, nofun, nofun, nofun⟩
  | missing d h hd hm => exact ⟨key_np hn (denotes_desc hd) hi.1, (token_np hi h).1, nofun, nofun, nofun, nofun⟩
  | extra d h hd hm hv hx => exact ⟨key_np hn (denotes_desc hd) hi.1, (token_np hi h).1, nofun, nofun, nofun, nofun⟩
  | malformed d taken rest v cls n' t' b h hd hm hx e hlen htake hf hb =>
    subst e
    have hs := malformed_np hn hf (ho v (by simp))
    have hb := blamed_np ha hb (token_np hi h) fun v hv => ho v (by simp [hv])
    exact ⟨key_np hn (denotes_desc hd) hi.1, hb.1, fun alts e => ⟨hb.2, (hs.alts alts e).2⟩, hs.plain⟩
  | option d taken rest v d' h hd hm hx e hlen htake hs hv =>
    subst e
    exact ⟨key_np hn (denotes_desc hd) hi.1, ho _ (by simp), nofun, nofun, nofun, nofun⟩
  | options d taken rest v alts h hd hm hx e hlen htake hs hv =>
    subst e
    obtain ⟨items, hs⟩ := hs
    have hvn := ho t (by simp)
    refine ⟨key_np hn (denotes_desc hd) hi.1, hvn, ?_, nofun, nofun, nofun⟩
    intro as e; cases e
    exact ⟨(spells_np ha hs hvn).1, ambiguous_np hn hvn hv⟩

theorem stuckAll_np (ha : c.additional = none) (hn : NamesNP c) {items : List Item} {other : List Str} {cls : ErrClass} {n t : Str}
    (h : StuckAll c items other cls n t) (hi : ∀ i ∈ items, NP i.name ∧ ∀ t ∈ i.tokens, NP t ∧ t ≠ []) (ho : ∀ v ∈ other, NP v) : Sayable cls n t := by
  induction h with
  | one h => exact stuck_np ha hn h (hi _ (by simp)) ho
  | head _ h => exact stuck_np ha hn h (hi _ (by simp)) nofun
  | tail _ _ ih => exact ih (fun i h => hi i (by simp [h])) ho

theorem breaks_np (ha : c.additional = none) (hn : NamesNP c) {args : List Str} {cls : ErrClass} {n t : Str} (h : Breaks c args cls n t)
    (ho : ∀ v ∈ args, NP v) : Sayable cls n t := by
  induction h with
  | malformed h => exact malformed_np hn h (ho _ (by simp))
  | stuck h hs => exact stuckAll_np ha hn hs (spells_np ha h (ho _ (by simp))).2 fun v hv => ho v (by simp [hv])
  | plain _ _ _ ih => exact ih fun v hv => ho v (by simp [hv])
  | option _ _ _ ih => exact ih fun v hv => ho v (by simp [hv])

theorem completes_np (hn : NamesNP c) {i : Item} {taken : List Str} {o : Opt} (h : Completes c i taken o)
    (hi : NP i.name ∧ ∀ t ∈ i.tokens, NP t ∧ t ≠ []) : NP o.stringKey ∧ ∀ t ts, o.originalTokens = t :: ts → i.tokens ≠ [] ∨ taken = [] → NP t ∧ t ≠ [] := by
  cases h with
  | nameless h => exact ⟨by simp [NP], fun t ts e _ => hi.2 t (by simp at e; simp [e])⟩
  | unknown h _ _ => exact ⟨hi.1, fun t ts e _ => hi.2 t (by simp at e; simp [e])⟩
  | known d taken h hd hlen htake hsw =>
    refine ⟨key_np hn (denotes_desc hd) hi.1, ?_⟩
    intro t ts e h'
    cases ht : i.tokens with
    | nil =>
      rcases h' with h' | h'
      · exact absurd ht h'
      · rw [ht, h'] at e; cases e
    | cons t' ts' => rw [ht] at e; cases e; exact hi.2 t (by rw [ht]; simp)

theorem completesAll_np (hn : NamesNP c) {items : List Item} {taken : List Str} {os : List Opt} (h : CompletesAll c items taken os)
    (hi : ∀ i ∈ items, NP i.name ∧ ∀ t ∈ i.tokens, NP t ∧ t ≠ []) (hl : ∀ i, items.getLast? = some i → i.tokens ≠ []) :
    ∀ o ∈ os, NP o.stringKey ∧ ∀ t ts, o.originalTokens = t :: ts → NP t ∧ t ≠ [] := by
  induction h with
  | one h =>
    intro o ho; rw [List.mem_singleton] at ho; subst ho
    have := completes_np hn h (hi _ (by simp))
    exact ⟨this.1, fun t ts e => this.2 t ts e (.inl (hl _ rfl))⟩
  | @cons i o is taken os h t ih =>
    intro o' ho
    rcases List.mem_cons.1 ho with rfl | ho
    · have := completes_np hn h (hi _ (by simp))
      exact ⟨this.1, fun t ts e => this.2 t ts e (.inr rfl)⟩
    · refine ih (fun i h => hi i (by simp [h])) ?_ o' ho
      intro j hj
      cases is with
      | nil => cases hj
      | cons x is => exact hl j (by rw [List.getLast?_cons_cons]; exact hj)

theorem group_last {tok s : Str} {items : List Item} (h : Group c tok s items) : ∀ i, items.getLast? = some i → i.tokens ≠ [] := by
  induction h with
  | last a => intro i hi; cases hi; simp
  | value a v => intro i hi; cases hi; simp
  | switch a t items ht h g ih =>
    intro i hi
    cases items with
    | nil => cases g
    | cons x is => exact ih i (by rw [List.getLast?_cons_cons] at hi; exact hi)

theorem spells_last (ha : c.additional = none) {tok : Str} {items : List Item} (h : Spells c tok items) : ∀ i, items.getLast? = some i → i.tokens ≠ [] := by
  cases h with
  | additional f hf => rw [ha] at hf; cases hf
  | long | longEq | disguised | disguisedEq | slash => intro i hi; cases hi; simp
  | short a t items hu hs e ha' hd hg => exact group_last hg

theorem reads_np (ha : c.additional = none) (hn : NamesNP c) {args : List Str} {os : List Opt} (h : Reads c args os) (hargs : ∀ v ∈ args, NP v) :
    ∀ o ∈ os, o.stringKey ≠ [] → NP o.stringKey ∧ ∀ t ts, o.originalTokens = t :: ts → NP t ∧ t ≠ [] := by
  induction h with
  | nil => nofun
  | plain _ _ _ ih =>
    intro o ho hk
    rcases List.mem_cons.1 ho with rfl | ho
    · exact absurd rfl hk
    · exact ih (fun v hv => hargs v (by simp [hv])) o ho hk
  | terminator =>
    intro o ho hk
    obtain ⟨t, _, rfl⟩ := List.mem_map.1 ho
    exact absurd rfl hk
  | option hs hc _ ih =>
    intro o ho hk
    rcases List.mem_append.1 ho with ho | ho
    · exact completesAll_np hn hc (spells_np ha hs (hargs _ (by simp))).2 (spells_last ha hs) o ho
    · exact ih (fun v hv => hargs v (by simp [hv])) o ho hk

theorem clashes_np (hn : NamesNP c) {os : List Opt} {f : Fail} (h : Clashes c os f)
    (ho : ∀ o ∈ os, o.stringKey ≠ [] → NP o.stringKey ∧ ∀ t ts, o.originalTokens = t :: ts → NP t ∧ t ≠ []) (e : OptErr) (hf : f = .opt e) :
    ∃ cls n t, f = complaint c cls n t ∧ Sayable cls n t := by
  induction h with
  | @here o os alts t ts h hamb ht =>
    obtain ⟨h1, h2⟩ := ho o (by simp) h
    obtain ⟨h3, h4⟩ := h2 t ts ht
    refine ⟨_, _, _, rfl, h1, h3, ?_, nofun, nofun, nofun⟩
    intro as e; cases e
    exact ⟨h4, ambiguous_np hn h1 hamb⟩
  | undefined => cases hf
  | positional _ _ ih | keep _ _ _ ih => exact ih (fun o h => ho o (by simp [h])) hf
  | take _ _ _ _ _ _ _ ih => exact ih (fun o h => ho o (by simp [h])) hf

end Cmdline

theorem stripPrefixes_eq (s : Str) : stripPrefixes s = undashed s := by
  unfold stripPrefixes undashed
  congr 1
  apply congrArg (List.dropWhile · s)
  funext c
  simp [beq_eq_decide]

theorem undashed_ne {s : Str} (h : s ≠ []) : undashed s ≠ [] := by
  unfold undashed
  split
  · exact h
  · rename_i h'; exact h'

theorem canonicalPrefix_known (c : Cmdline) : KnownStyle c.canonicalPrefix := by
  unfold Cmdline.canonicalPrefix KnownStyle
  cases active c.style Style.allowLong <;> cases active c.style Style.allowLongDisguise <;> cases active c.style Style.allowShort <;>
    cases active c.style Style.allowDashForShort <;> cases active c.style Style.allowSlashForShort <;>
    simp [Style.allowLong, Style.allowLongDisguise, Style.allowDashForShort, Style.allowSlashForShort]

/-- The name under which the exception displays the option. -/
theorem canonical_displayed (c : Cmdline) (cls : ErrClass) (n t : Str) (e : OptErr) (he : Fail.opt e = complaint c cls n t) :
    e.canonicalName = some (displayed c cls n t) := by
  unfold complaint at he
  injection he with he
  subst he
  have general : ∀ n', n' ≠ [] → OptErr.canonicalName { cls := cls, style := c.canonicalPrefix, subst := [(str% "option", n'), (str% "original_token", t)] } =
      some (if Enabled c Style.allowLong then '-' :: '-' :: undashed n'
        else if Enabled c Style.allowLongDisguise then '-' :: undashed n'
        else if t = [] ∨ ¬ Enabled c Style.allowShort then undashed n'
        else if Enabled c Style.allowDashForShort then '-' :: (undashed t).take 1
        else if Enabled c Style.allowSlashForShort then '/' :: (undashed t).take 1
        else undashed n') := by
    intro n' hn'
    unfold OptErr.canonicalName
    have s1 : OptErr.substD { cls := cls, style := c.canonicalPrefix, subst := [(str% "option", n'), (str% "original_token", t)] } (str% "option") = n' := rfl
    have s2 : OptErr.substD { cls := cls, style := c.canonicalPrefix, subst := [(str% "option", n'), (str% "original_token", t)] } (str% "original_token") = t := rfl
    rw [s1, s2, if_neg hn']
    dsimp only
    rw [stripPrefixes_eq, stripPrefixes_eq]
    unfold OptErr.canonicalPrefix
    dsimp only
    unfold Enabled Cmdline.canonicalPrefix
    by_cases h1 : active c.style Style.allowLong = true
    · simp only [h1, if_true]; simp [Style.allowLong, Style.allowLongDisguise, Style.allowDashForShort, Style.allowSlashForShort]
    by_cases h2 : active c.style Style.allowLongDisguise = true
    · simp only [h1, h2, if_true, if_false, Bool.false_eq_true]; simp [Style.allowLongDisguise, Style.allowDashForShort, Style.allowSlashForShort]
    by_cases h3 : active c.style Style.allowShort = true
    · cases t with
      | nil =>
        have : undashed [] = [] := rfl
        by_cases h4 : active c.style Style.allowDashForShort = true <;> by_cases h5 : active c.style Style.allowSlashForShort = true <;>
          simp [h1, h2, h3, h4, h5, this] <;> decide
      | cons x t =>
        obtain ⟨y, r, hy⟩ := List.exists_cons_of_ne_nil (undashed_ne (List.cons_ne_nil x t))
        rw [hy]
        by_cases h4 : active c.style Style.allowDashForShort = true <;> by_cases h5 : active c.style Style.allowSlashForShort = true <;>
          simp [h1, h2, h3, h4, h5] <;> simp [Style.allowLong, Style.allowLongDisguise, Style.allowDashForShort, Style.allowSlashForShort]
    · cases undashed t <;> simp [h1, h2, h3] <;> simp [Style.allowLong, Style.allowLongDisguise]
  cases cls with
  | unknownOption => rfl
  | ambiguousOption alts => rfl
  | multipleValues | multipleOccurrences | requiredOption | cmdlineSyntax | configSyntax | validation =>
    unfold displayed
    dsimp only
    by_cases hn : n = []
    · subst hn; rfl
    · rw [if_neg hn]; exact general n hn

theorem canonical_dashes (c : Cmdline) (cls : ErrClass) (n t : Str) (e : OptErr) (he : Fail.opt e = complaint c cls n t)
    (h : e.style ≠ Style.allowDashForShort ∧ e.style ≠ Style.allowSlashForShort) :
    e.canonicalPrefix = some (dashes c) ∧ (Enabled c Style.allowLong ∨ Enabled c Style.allowLongDisguise ∨
        ¬ (Enabled c Style.allowShort ∧ (Enabled c Style.allowDashForShort ∨ Enabled c Style.allowSlashForShort))) := by
  unfold complaint at he
  injection he with he
  subst he
  unfold OptErr.canonicalPrefix
  rw [if_neg h.1, if_neg h.2]
  unfold dashes
  simp only [Enabled] at h ⊢
  revert h
  unfold Cmdline.canonicalPrefix
  by_cases h1 : active c.style Style.allowLong = true
  · simp only [h1, if_true]; simp [Style.allowLong, Style.allowLongDisguise, Style.allowDashForShort, Style.allowSlashForShort]
  by_cases h2 : active c.style Style.allowLongDisguise = true
  · simp only [h1, h2, if_true, if_false, Bool.false_eq_true]; simp [Style.allowLongDisguise, Style.allowDashForShort, Style.allowSlashForShort]
  by_cases h3 : active c.style Style.allowShort = true <;> by_cases h4 : active c.style Style.allowDashForShort = true <;>
    by_cases h5 : active c.style Style.allowSlashForShort = true <;> simp [h1, h2, h3, h4, h5] <;>
    simp [Style.allowLong, Style.allowLongDisguise]

theorem short_style (c : Cmdline) (h : c.canonicalPrefix = Style.allowDashForShort ∨ c.canonicalPrefix = Style.allowSlashForShort) :
    ¬ Enabled c Style.allowLong ∧ ¬ Enabled c Style.allowLongDisguise ∧
      Enabled c Style.allowShort ∧ (Enabled c Style.allowDashForShort ∨ Enabled c Style.allowSlashForShort) := by
  revert h
  unfold Enabled Cmdline.canonicalPrefix
  cases active c.style Style.allowLong <;> cases active c.style Style.allowLongDisguise <;> cases active c.style Style.allowShort <;>
    cases active c.style Style.allowDashForShort <;> cases active c.style Style.allowSlashForShort <;>
    simp [Style.allowLong, Style.allowLongDisguise, Style.allowDashForShort, Style.allowSlashForShort]

theorem built_complaint (c : Cmdline) (cls : ErrClass) (n t : Str) (e : OptErr) (he : Fail.opt e = complaint c cls n t) : Built e := by
  unfold complaint at he
  injection he with he
  subst he
  exact .mk cls _ t _

theorem np_clean {s : Str} (h : NP s) : Clean s := fun _ _ => placeholder_noPercent h

theorem complaint_says (c : Cmdline) (cls : ErrClass) (n t : Str) (hs : Cmdline.Sayable cls n t) (e : OptErr) (he : Fail.opt e = complaint c cls n t) :
    ∃ text, Tells c cls n t text ∧ ∃ f0, ∀ f, f0 ≤ f → e.what f = some text := by
  have hb := built_complaint c cls n t e he
  have hn := canonical_displayed c cls n t e he
  have hcls : e.cls = cls := by unfold complaint at he; injection he with he; rw [he]
  have hstyle : e.style = c.canonicalPrefix := by unfold complaint at he; injection he with he; rw [he]
  have hk : KnownStyle e.style := by rw [hstyle]; exact canonicalPrefix_known c
  have ht : e.substD (str% "original_token") = t := by unfold complaint at he; injection he with he; rw [he]; rfl
  have hv : e.substD (str% "value") = [] := by unfold complaint at he; injection he with he; rw [he]; rfl
  have hl : e.substD (str% "invalid_line") = [] := by unfold complaint at he; injection he with he; rw [he]; rfl
  have hhas : SMap.has e.subst (str% "value") = false ∧ SMap.has e.subst (str% "invalid_line") = false := by
    unfold complaint at he; injection he with he; rw [he]; exact ⟨rfl, rfl⟩
  have h2 : Clean (e.substD (str% "original_token")) := by rw [ht]; exact np_clean hs.token
  have h1 : Clean (e.substD (str% "option")) := by
    have : e.substD (str% "option") = [] ∨ e.substD (str% "option") = n := by
      unfold complaint at he; injection he with he; rw [he]; cases cls <;> simp [OptErr.substD, SMap.get?]
    rcases this with h | h <;> rw [h]
    · exact np_clean (by simp [NP])
    · exact np_clean hs.name
  by_cases ha : ∃ alts, cls = .ambiguousOption alts
  · obtain ⟨alts, ha⟩ := ha
    obtain ⟨htok, hne, hal⟩ := hs.alts alts ha
    subst ha
    by_cases hst : e.style = Style.allowDashForShort ∨ e.style = Style.allowSlashForShort
    · obtain ⟨a, b, d⟩ := short_style c (by rw [← hstyle]; exact hst)
      refine ⟨_, .short a b d, 5, fun f hf => ?_⟩
      obtain ⟨pre, hp, _⟩ := prefix_of_known hk
      obtain ⟨line, n', t', value, hsh⟩ := built_shape hb
      have hs' : e.subst = shape none n' t' none := by
        obtain ⟨hv, hi⟩ := hhas
        rw [hsh] at hv hi ⊢
        exact shape_none hv hi
      unfold OptErr.what
      rw [hcls]
      dsimp only
      rw [if_pos hst, substitute_template e (.ambiguousOption alts) none n' t' none _ pre hs' hn hp (fun h => Form.noConfusion h)
        (name_clean hp hn h1 h2) (by simp) (by simp) f hf]
      show some (message t [] [] _) = _
      unfold message optionText
      rw [if_neg htok]
      simp
    · have hst : e.style ≠ Style.allowDashForShort ∧ e.style ≠ Style.allowSlashForShort := by simpa [not_or] using hst
      obtain ⟨hp, hen⟩ := canonical_dashes c _ n t e he hst
      obtain ⟨name, pre, sorted, f0, e1, e2, e3, e4, e5⟩ := C49_alternatives e hb hk alts hcls hst hne hal h1 h2 hhas (by
        rw [hn]; intro h; injection h with h; exact htok h)
      rw [hn] at e1; cases e1
      rw [hp] at e2; cases e2
      exact ⟨_, .ambiguous sorted e3 e4 hen, f0, e5⟩
  · have ha : ∀ alts, cls ≠ .ambiguousOption alts := fun alts h => ha ⟨alts, h⟩
    obtain ⟨name, e1, e2⟩ := C48_verbatim_partial e hb hk (by rw [hcls]; exact ha)
      (by rw [hcls]; rintro (h | h) <;> [exact absurd h hs.plain.2.1; exact absurd h (hs.plain.1 _)]) h1 h2 (by rw [hv]; decide) (by rw [hl]; exact np_clean (by simp [NP]))
    rw [hn] at e1; cases e1
    exact ⟨_, .other ha, 5, fun f hf => by rw [e2 f hf, hv, hl, hcls]⟩

/-- **C80.** If a command line is refused with an exception about an option, the exception is about some token and some option (as C63
says which), and its message is the text that `Tells` gives for these: the class of the exception and the style determine the words, and
the option is displayed as on the command line. No percent sign is in the names and tokens. -/
theorem C80_explained (c : Cmdline) (hs : c.styleParser = none) (ha : c.additional = none)
    (hne : ∀ d ∈ c.desc, ∀ name, name ≠ [] → reportedKey d name ≠ []) (hn : ∀ d ∈ c.desc, '%' ∉ d.shortName ∧ ∀ n ∈ d.longNames, '%' ∉ n)
    (args : List Str) (hlen : args.length < 2147483648) (hp : ∀ t ∈ args, '%' ∉ t) (e : OptErr) (h : c.run args = .error (.opt e)) :
    ∃ cls name tok, Fail.opt e = complaint c cls name tok ∧
      ∃ text, Tells c cls name tok text ∧ ∃ f0, ∀ f, f0 ≤ f → e.what f = some text := by
  have h := (C63_refused c hs hne args hlen _).1 h
  have : ∃ cls n t, Fail.opt e = complaint c cls n t ∧ Cmdline.Sayable cls n t := by
    generalize hf : Fail.opt e = f at h
    cases h with
    | reading h => exact ⟨_, _, _, rfl, Cmdline.breaks_np ha hn h hp⟩
    | gathering h hc => exact Cmdline.clashes_np hn hc (Cmdline.reads_np ha hn h hp) e hf.symm
    | labelling => cases hf
  obtain ⟨cls, n, t, h1, h2⟩ := this
  exact ⟨cls, n, t, h1, complaint_says c cls n t h2 e h1⟩

/-- In particular, with the rules that find the token at fault (`Breaks`). -/
theorem C80_token (c : Cmdline) (hs : c.styleParser = none) (ha : c.additional = none)
    (hne : ∀ d ∈ c.desc, ∀ name, name ≠ [] → reportedKey d name ≠ []) (hn : ∀ d ∈ c.desc, '%' ∉ d.shortName ∧ ∀ n ∈ d.longNames, '%' ∉ n)
    (args : List Str) (hlen : args.length < 2147483648) (hp : ∀ t ∈ args, '%' ∉ t) (cls : ErrClass) (name tok : Str) (h : Breaks c args cls name tok) :
    ∃ e, c.run args = .error (.opt e) ∧ ∃ text, Tells c cls name tok text ∧ ∃ f0, ∀ f, f0 ≤ f → e.what f = some text := by
  have hr := (C63_refused c hs hne args hlen _).2 (.reading h)
  obtain ⟨e, he⟩ : ∃ e, complaint c cls name tok = .opt e := ⟨_, rfl⟩
  exact ⟨e, by rw [hr, he], complaint_says c cls name tok (Cmdline.breaks_np ha hn h hp) e he.symm⟩

/-- A missing value: the option is displayed by its long name, although it was given by its letter. -/
example : ∃ e, grammarExample.run [Test.L "x", Test.L "-o"] = .error (.opt e) ∧
    Tells grammarExample (.cmdlineSyntax .missingParameter) (Test.L "out") (Test.L "-o") (Test.L "the required argument for option '--out' is missing") ∧
    e.what 5 = some (Test.L "the required argument for option '--out' is missing") :=
  ⟨_, rfl, .other nofun, by decide⟩

/-- Two options with a common beginning; an abbreviation of both is refused, and the hypotheses of the theorem hold. -/
def explainExample : Cmdline :=
  { style := Style.defaultStyle, desc := [Test.od "verbose" (Test.sem Test.vstr) "", Test.od "version" (Test.sem Test.vstr) ""] }

set_option maxRecDepth 8000 in
example : (∀ d ∈ explainExample.desc, ∀ name, name ≠ [] → reportedKey d name ≠ []) ∧
    (∀ d ∈ explainExample.desc, '%' ∉ d.shortName ∧ ∀ n ∈ d.longNames, '%' ∉ n) ∧
    ∃ e, explainExample.run [Test.L "--ver"] = .error (.opt e) ∧
      e.what 9 = some (Test.L "option '--ver' is ambiguous and matches '--verbose', and '--version'") := by
  refine ⟨keys_nonempty _ ?_, ?_, _, rfl, rfl⟩
  · intro d hd
    simp only [explainExample, List.mem_cons, List.not_mem_nil, or_false] at hd
    rcases hd with rfl | rfl <;> decide
  · intro d hd
    simp only [explainExample, List.mem_cons, List.not_mem_nil, or_false] at hd
    rcases hd with rfl | rfl <;> decide

end PO
