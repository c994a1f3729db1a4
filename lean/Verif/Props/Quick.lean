import Verif.Spec.Quick
import Verif.Props.Programs
import Verif.Props.Grammar
/-
C158: the command lines with which test/quick.cpp passes.
-/
namespace PO
open Spec

namespace Quick

variable (env : Env)

def path : OptionDesc := { shortName := str% "-p", longNames := [str% "path"], description := [], semantic := Hierarchy.string.toSemantic env }

theorem desc_eq : desc env = [path env] := rfl

/-- the parser -/
abbrev parser : Cmdline := { desc := [path env] }

variable {env}

theorem exact_iff (n : Str) : Exact (path env) n false false ↔ n = str% "path" ∨ n = str% "-p" := by
  unfold Exact
  simp only [fold, Bool.false_eq_true, if_false]
  constructor
  · rintro (⟨m, hm, -, rfl⟩ | h)
    · exact .inl (List.mem_singleton.1 hm)
    · exact .inr h.symm
  · rintro (rfl | rfl)
    · exact .inl ⟨_, List.mem_singleton.2 rfl, by decide, rfl⟩
    · exact .inr rfl

theorem approximate_iff (n : Str) (ab : Bool) : Approximate (path env) n ab false ↔ ab = true ∧ n <+: str% "path" := by
  unfold Approximate
  simp only [fold, Bool.false_eq_true, if_false]
  constructor
  · rintro ⟨m, hm, -, h | ⟨stem, h, -⟩⟩
    · cases List.mem_singleton.1 hm
      exact h
    · cases List.mem_singleton.1 hm
      exact absurd (by rw [h]; simp) (by decide : '*' ∉ str% "path")
  · rintro ⟨h1, h2⟩
    exact ⟨_, List.mem_singleton.2 rfl, by decide, .inl ⟨h1, h2⟩⟩

def Known (n : Str) : Prop := n <+: str% "path" ∨ n = str% "-p"

theorem denotes_iff (n : Str) (d : OptionDesc) : Denotes (parser env) n d ↔ d = path env ∧ Known n := by
  have e1 : active (parser env).style Style.longCaseInsensitive = false := show active Style.defaultStyle _ = _ by decide
  have e2 : active (parser env).style Style.shortCaseInsensitive = false := show active Style.defaultStyle _ = _ by decide
  have e3 : active (parser env).style Style.allowGuessing = true := show active Style.defaultStyle _ = _ by decide
  unfold Denotes
  dsimp only
  rw [e1, e2, e3]
  unfold exacts approximates
  by_cases he : Exact (path env) n false false
  · rw [List.filter_cons_of_pos (by simpa using he), List.filter_cons_of_neg (by simp [he])]
    have hk : Known n := by
      rcases (exact_iff n).1 he with rfl | rfl
      · exact .inl (by decide)
      · exact .inr rfl
    simp [hk, eq_comm]
  · rw [List.filter_cons_of_neg (by simpa using he)]
    by_cases ha : Approximate (path env) n true false
    · rw [List.filter_cons_of_pos (by simp [he, ha])]
      have hk : Known n := .inl ((approximate_iff n true).1 ha).2
      simp [hk, eq_comm]
    · rw [List.filter_cons_of_neg (by simp [ha])]
      have hk : ¬ Known n := by
        rintro (h | h)
        · exact ha ((approximate_iff n true).2 ⟨rfl, h⟩)
        · exact he ((exact_iff n).2 (.inr h))
      simp [hk]

theorem unknown_iff (n : Str) : Unknown (parser env) n ↔ ¬ Known n := by
  have e1 : active (parser env).style Style.longCaseInsensitive = false := show active Style.defaultStyle _ = _ by decide
  have e2 : active (parser env).style Style.shortCaseInsensitive = false := show active Style.defaultStyle _ = _ by decide
  have e3 : active (parser env).style Style.allowGuessing = true := show active Style.defaultStyle _ = _ by decide
  unfold Unknown
  rw [e1, e2, e3, show (parser env).desc = [path env] from rfl]
  simp only [List.forall_mem_singleton, exact_iff, approximate_iff]
  constructor
  · rintro ⟨h1, h2⟩ (h | h)
    · exact h2 ⟨trivial, h⟩
    · exact h1 (.inr h)
  · intro h
    refine ⟨?_, fun h' => h (.inl h'.2)⟩
    rintro (rfl | rfl)
    · exact h (.inl (by decide))
    · exact h (.inr rfl)

theorem unclaimed (tok : Str) : Unclaimed (parser env) tok := by
  intro f hf
  cases hf

theorem allowLong : Enabled (parser env) Style.allowLong := show active Style.defaultStyle _ = _ by decide
theorem allowShort : Enabled (parser env) Style.allowShort ∧ Enabled (parser env) Style.allowDashForShort :=
  ⟨show active Style.defaultStyle _ = _ by decide, show active Style.defaultStyle _ = _ by decide⟩
theorem noDisguise : ¬ Enabled (parser env) Style.allowLongDisguise :=
  show ¬ active Style.defaultStyle _ = true by decide
theorem noSlash : ¬ Enabled (parser env) Style.allowSlashForShort :=
  show ¬ active Style.defaultStyle _ = true by decide

theorem group_iff (tok : Str) (a : Char) (t : Str) (items : List Item) :
    Group (parser env) tok (a :: t) items ↔ items = [⟨['-', a], if t = [] then [] else [t], [tok]⟩] := by
  have hsw : ¬ GroupSwitch (parser env) a := by
    rintro ⟨-, d, hd, hm⟩
    have : d = path env := by
      unfold DenotesLetter at hd
      dsimp only at hd
      rcases hd with hd | ⟨-, hd⟩
      · have : d ∈ exacts (parser env).desc ['-', a] false (active (parser env).style Style.shortCaseInsensitive) := by rw [hd]; simp
        exact List.mem_singleton.1 (List.mem_of_mem_filter this)
      · have : d ∈ approximates (parser env).desc ['-', a] false false (active (parser env).style Style.shortCaseInsensitive) := by rw [hd]; simp
        exact List.mem_singleton.1 (List.mem_of_mem_filter this)
    rw [this] at hm
    cases hm
  have hd : (∃ d, DenotesLetter (parser env) a d) ∨ UnknownShort (parser env) a := by
    by_cases ha : a = 'p'
    · left
      refine ⟨path env, .inl ?_⟩
      rw [show active (parser env).style Style.shortCaseInsensitive = false from show active Style.defaultStyle _ = _ by decide]
      unfold exacts
      rw [List.filter_cons_of_pos]
      · rfl
      · rw [decide_eq_true_eq, exact_iff, ha]
        exact .inr rfl
    · right
      intro d hd
      rw [List.mem_singleton.1 hd, show active (parser env).style Style.shortCaseInsensitive = false from show active Style.defaultStyle _ = _ by decide]
      constructor
      · rw [exact_iff]
        rintro (h | h)
        · cases h
        · cases h; exact ha rfl
      · rw [approximate_iff]
        rintro ⟨h, -⟩
        cases h
  constructor
  · intro h
    cases h with
    | last => rfl
    | value _ _ hv => rw [if_neg hv]
    | switch _ _ _ _ h => exact absurd h hsw
  · rintro rfl
    cases t with
    | nil => exact .last a hd
    | cons b t => exact .value a _ (by simp) hd hsw

inductive Written : Str → List Item → Prop
  | long (n : Str) (hn : '=' ∉ n) (h0 : n ≠ []) : Written ('-' :: '-' :: n) [⟨n, [], ['-' :: '-' :: n]⟩]
  | longEq (n v : Str) (hn : '=' ∉ n) (hv : v ≠ []) : Written ('-' :: '-' :: n ++ '=' :: v) [⟨n, [v], ['-' :: '-' :: n ++ '=' :: v]⟩]
  | short (a : Char) (t : Str) (ha : a ≠ '-') : Written ('-' :: a :: t) [⟨['-', a], if t = [] then [] else [t], ['-' :: a :: t]⟩]

theorem spells_iff (tok : Str) (items : List Item) : Spells (parser env) tok items ↔ Written tok items := by
  constructor
  · intro h
    cases h with
    | additional f hf => cases hf
    | long n _ _ ht hn h0 => rw [ht]; exact .long n hn h0
    | longEq n v _ _ ht hn hv => rw [ht]; exact .longEq n v hn hv
    | disguised _ _ _ _ hs => exact absurd hs noDisguise
    | disguisedEq _ _ _ _ _ hs => exact absurd hs noDisguise
    | short a t _ _ _ ht ha _ hg => rw [(group_iff _ _ _ _).1 hg, ht]; exact .short a t ha
    | slash _ _ _ hs => exact absurd hs.2 noSlash
  · intro h
    cases h with
    | long n hn h0 => exact .long n (unclaimed _) allowLong rfl hn h0
    | longEq n v hn hv => exact .longEq n v (unclaimed _) allowLong rfl hn hv
    | short a t ha => exact .short a t _ (unclaimed _) allowShort rfl ha (fun h => absurd h noDisguise) ((group_iff _ _ _ _).2 rfl)

theorem plain_iff (tok : Str) : Plain (parser env) tok ↔ tok.head? ≠ some '-' ∨ tok = str% "-" ∨ tok = str% "--" := by
  constructor
  · rintro ⟨-, h1, -, h2, -⟩
    match tok, h1, h2 with
    | [], _, _ => exact .inl (by simp)
    | [a], _, _ =>
      by_cases ha : a = '-'
      · exact .inr (.inl (by rw [ha]))
      · exact .inl (by simpa using ha)
    | a :: b :: t, h1, h2 =>
      by_cases ha : a = '-'
      · subst ha
        cases h2 allowShort.1 allowShort.2 b t rfl
        cases t with
        | nil => exact .inr (.inr rfl)
        | cons x t => exact absurd ⟨_, rfl⟩ (h1 allowLong (by simp))
      · exact .inl (by simpa using ha)
  · intro h
    refine ⟨unclaimed _, fun _ hl hp => ?_, fun h => absurd h noDisguise, fun _ _ a t ht => ?_, fun _ h => absurd h noSlash⟩
    · obtain ⟨t, rfl⟩ := hp
      rcases h with h | h | h
      · simp at h
      · cases h
      · cases h; simp at hl
    · subst ht
      rcases h with h | h | h
      · simp at h
      · cases h
      · cases h; rfl

theorem upTo_eq {n : Str} (h : '=' ∉ n) (v : Str) : (n ++ '=' :: v).takeWhile (fun c => decide (c ≠ '=')) = n := by
  induction n with
  | nil => simp
  | cons c n ih =>
    have hc : c ≠ '=' := fun e => h (by simp [e])
    rw [List.cons_append, List.takeWhile_cons_of_pos (by simpa using hc), ih fun h' => h (List.mem_cons_of_mem _ h')]

theorem first_eq {s : Str} (h : '=' ∈ s) : ∃ n v, s = n ++ '=' :: v ∧ '=' ∉ n := by
  induction s with
  | nil => cases h
  | cons c s ih =>
    by_cases hc : c = '='
    · exact ⟨[], s, by rw [hc]; rfl, by simp⟩
    · obtain ⟨n, v, rfl, hn⟩ := ih (by rcases List.mem_cons.1 h with h | h; exact absurd h.symm hc; exact h)
      refine ⟨c :: n, v, rfl, ?_⟩
      rintro (_ | ⟨_, h⟩)
      · exact hc rfl
      · exact hn h

theorem not_known_dash {v : Str} (h : v.head? = some '-') (hp : v ≠ str% "-p") : ¬ Known v := by
  rintro (⟨t, ht⟩ | h')
  · cases v with
    | nil => cases h
    | cons c v => cases h; cases ht
  · exact hp h'

theorem takeable_iff (v : Str) : Takeable (parser env) v ↔ Value v := by
  unfold Takeable
  simp only [plain_iff, spells_iff, unknown_iff]
  constructor
  · rintro (h | ⟨⟨items, h⟩, hk⟩)
    · constructor
      · rintro rfl
        rcases h with h | h | h
        · exact h rfl
        · cases h
        · cases h
      · rintro n hn rfl
        rcases h with h | h | h
        · exact h rfl
        · cases h
        · have := congrArg List.length h
          simp at this
    · refine ⟨fun e => hk (.inr e), ?_⟩
      rintro n hn rfl
      have e : str% "--" ++ n ++ str% "=" = '-' :: '-' :: (n ++ ['=']) := rfl
      rw [e] at h
      generalize hx : '-' :: '-' :: (n ++ ['=']) = x at h
      cases h with
      | long m hm => cases hx; simp at hm
      | longEq m w hm hw =>
        simp only [List.cons_append, List.cons.injEq, true_and] at hx
        have h1 : m = n := by
          have := congrArg (List.takeWhile (fun c => decide (c ≠ '='))) hx
          rw [upTo_eq hn, upTo_eq hm] at this
          exact this.symm
        rw [h1] at hx
        have := List.append_cancel_left hx
        cases this
        exact hw rfl
      | short a t ha => cases hx; exact ha rfl
  · rintro ⟨h1, h2⟩
    by_cases hd : v.head? = some '-'
    · cases v with
      | nil => cases hd
      | cons c v =>
        cases hd
        cases v with
        | nil => exact .inl (.inr (.inl rfl))
        | cons a t =>
          have hk := not_known_dash rfl h1
          by_cases ha : a = '-'
          · subst ha
            cases t with
            | nil => exact .inl (.inr (.inr rfl))
            | cons b t =>
              right
              refine ⟨?_, hk⟩
              by_cases he : '=' ∈ b :: t
              · obtain ⟨n, w, hs, hn⟩ := first_eq he
                rw [hs]
                by_cases hw : w = []
                · subst hw
                  exact absurd (by rw [hs]; rfl) (h2 n hn)
                · exact ⟨_, .longEq n w hn hw⟩
              · exact ⟨_, .long _ he (by simp)⟩
          · exact .inr ⟨⟨_, .short a t ha⟩, hk⟩
    · exact .inl (.inl hd)

theorem known_cons {n : Str} (h0 : n ≠ []) : Known n ↔ Name n := by
  unfold Known Name
  simp [h0]

theorem reads_line {args : List Str} {os : List Opt} (h : Reads (parser env) args os) : Line args (said os (str% "path")) := by
  induction h with
  | nil => exact .nil
  | @plain tok rest os h hd _ ih =>
    have hw : tok.head? ≠ some '-' ∨ tok = str% "-" := by
      rcases (plain_iff tok).1 h with h | h | h
      · exact .inl h
      · exact .inr h
      · exact absurd h hd
    exact .word tok hw ih
  | @terminator rest h =>
    have : said (rest.map fun t => ({ value := [t], originalTokens := [t], positionKey := intMax } : Opt)) (str% "path") = [] := by
      unfold said occurrences
      rw [List.filter_eq_nil_iff.2]
      · rfl
      · intro o ho
        obtain ⟨t, -, rfl⟩ := List.mem_map.1 ho
        simp
    rw [this]
    exact .stop rest
  | @option tok items taken os rest more h hc _ ih =>
    have hs : ∀ o : Opt, said ([o] ++ more) (str% "path") = (if o.stringKey = str% "path" ∧ o.unregistered = false then o.value else []) ++ said more (str% "path") := by
      intro o
      unfold said occurrences
      rw [List.singleton_append, List.filter_cons]
      by_cases ho : o.stringKey = str% "path" ∧ o.unregistered = false
      · rw [if_pos ho, if_pos (by simp [ho.1, ho.2]), List.flatMap_cons]
      · rw [if_neg ho, if_neg (by simpa using ho), List.nil_append]
    cases (spells_iff tok items).1 h with
    | long n hn h0 =>
      cases hc with
      | cons _ t => cases t
      | one hc =>
        cases hc with
        | nameless h => exact absurd h h0
        | unknown _ _ hu => cases hu
        | known d taken _ hd hlen htake =>
          obtain ⟨rfl, hk⟩ := (denotes_iff _ _).1 hd
          match taken, hlen, htake with
          | [v], _, htake =>
            rw [hs]
            exact .next n v ((known_cons h0).1 hk) ((takeable_iff v).1 (htake v (by simp))) ih
    | longEq n v hn hv =>
      cases hc with
      | cons _ t => cases t
      | one hc =>
        cases hc with
        | nameless h =>
          cases (show n = [] from h)
          rw [hs]
          exact .nameless v hv ih
        | unknown _ _ hu => cases hu
        | known d taken h0 hd hlen htake =>
          obtain ⟨rfl, hk⟩ := (denotes_iff _ _).1 hd
          match taken, hlen with
          | [], _ =>
            rw [hs]
            have := Line.equals n v ((known_cons h0).1 hk) hv ih
            simpa [show reportedKey (path env) n = str% "path" from rfl] using this
    | short a t ha =>
      cases hc with
      | cons _ t => cases t
      | one hc =>
        cases hc with
        | nameless h => cases h
        | unknown _ _ hu => cases hu
        | known d taken h0 hd hlen htake =>
          obtain ⟨rfl, hk⟩ := (denotes_iff _ _).1 hd
          have hap : a = 'p' := by
            rcases hk with ⟨u, hu⟩ | hk
            · cases hu
            · cases hk; rfl
          subst hap
          cases t with
          | nil =>
            match taken, hlen, htake with
            | [v], _, htake =>
              rw [hs]
              exact .shortNext v ((takeable_iff v).1 (htake v (by simp))) ih
          | cons b t =>
            match taken, hlen with
            | [], _ =>
              rw [hs]
              exact .short (b :: t) (by simp) ih

theorem name_known {n : Str} (h : Name n) : n ≠ [] ∧ '=' ∉ n ∧ Known n := by
  rcases h with ⟨h0, h⟩ | rfl
  · refine ⟨h0, fun he => ?_, .inl h⟩
    exact absurd (h.subset he) (by decide)
  · exact ⟨by decide, by decide, .inr rfl⟩

theorem said_path {o : Opt} {os : List Opt} (h : o.stringKey = str% "path") (hu : o.unregistered = false) :
    said (o :: os) (str% "path") = o.value ++ said os (str% "path") := by
  unfold said occurrences
  rw [List.filter_cons, if_pos (by simp [h, hu]), List.flatMap_cons]

theorem said_other {o : Opt} {os : List Opt} (h : o.stringKey = []) : said (o :: os) (str% "path") = said os (str% "path") := by
  unfold said occurrences
  rw [List.filter_cons, if_neg (by simp [h])]

theorem reported (n : Str) : reportedKey (path env) n = str% "path" := rfl

theorem line_reads {args vs : List Str} (h : Line args vs) : ∃ os, Reads (parser env) args os ∧ said os (str% "path") = vs := by
  induction h with
  | nil => exact ⟨[], .nil, rfl⟩
  | stop args =>
    refine ⟨_, .terminator (unclaimed _), ?_⟩
    unfold said occurrences
    rw [List.filter_eq_nil_iff.2]
    · rfl
    · intro o ho
      obtain ⟨t, -, rfl⟩ := List.mem_map.1 ho
      simp
  | @word args vs w h t ih =>
    obtain ⟨os, h1, h2⟩ := ih
    refine ⟨_, .plain ((plain_iff w).2 (h.imp id .inl)) ?_ h1, ?_⟩
    · rintro rfl
      rcases h with h | h
      · exact h rfl
      · cases h
    · rw [said_other rfl, h2]
  | @nameless args vs v h t ih =>
    obtain ⟨os, h1, h2⟩ := ih
    refine ⟨_, .option (taken := []) ((spells_iff _ _).2 (.longEq [] v (by simp) h)) (.one (.nameless rfl)) h1, ?_⟩
    rw [List.singleton_append, said_other rfl, h2]
  | @equals args vs n v hn h t ih =>
    obtain ⟨os, h1, h2⟩ := ih
    obtain ⟨n0, n1, n2⟩ := name_known hn
    have e : str% "--" ++ n ++ str% "=" ++ v = '-' :: '-' :: n ++ '=' :: v := by simp
    rw [e]
    refine ⟨_, .option (taken := []) ((spells_iff _ _).2 (.longEq n v n1 h)) (.one (.known (path env) [] n0 ((denotes_iff _ _).2 ⟨rfl, n2⟩) rfl (by simp) ?_)) h1, ?_⟩
    · intro h; cases h
    · rw [List.singleton_append, said_path rfl rfl, h2]
      rfl
  | @next args vs n v hn h t ih =>
    obtain ⟨os, h1, h2⟩ := ih
    obtain ⟨n0, n1, n2⟩ := name_known hn
    refine ⟨_, .option (taken := [v]) ((spells_iff _ _).2 (.long n n1 n0)) (.one (.known (path env) [v] n0 ((denotes_iff _ _).2 ⟨rfl, n2⟩) rfl ?_ ?_)) h1, ?_⟩
    · intro x hx; rw [List.mem_singleton.1 hx]; exact (takeable_iff v).2 h
    · intro h; cases h
    · rw [List.singleton_append, said_path rfl rfl, h2]
      rfl
  | @short args vs v h t ih =>
    obtain ⟨os, h1, h2⟩ := ih
    have hs := (spells_iff (env := env) _ _).2 (.short 'p' v (by decide))
    rw [if_neg h] at hs
    refine ⟨_, .option (taken := []) hs (.one (.known (path env) [] (by simp) ((denotes_iff _ _).2 ⟨rfl, .inr rfl⟩) rfl (by simp) ?_)) h1, ?_⟩
    · intro h; cases h
    · rw [List.singleton_append, said_path rfl rfl, h2]
      rfl
  | @shortNext args vs v h t ih =>
    obtain ⟨os, h1, h2⟩ := ih
    refine ⟨_, .option (taken := [v]) ((spells_iff _ _).2 (.short 'p' [] (by decide))) (.one (.known (path env) [v] (by simp) ((denotes_iff _ _).2 ⟨rfl, .inr rfl⟩) rfl ?_ ?_)) h1, ?_⟩
    · intro x hx; rw [List.mem_singleton.1 hx]; exact (takeable_iff v).2 h
    · intro h; cases h
    · rw [List.singleton_append, said_path rfl rfl, h2]
      rfl

theorem gathers_iff (os os' : List Opt) : Gathers (parser env) os os' ↔ os' = os := by
  have room : ∀ (d : OptionDesc) (n : Str) (o : Opt), Denotes (parser env) n d → ¬ HasRoom d o := by
    intro d n o hd
    cases ((denotes_iff _ _).1 hd).1
    exact fun h => absurd h.1 (show ¬ (1 < 1) by decide)
  constructor
  · intro h
    induction h with
    | nil => rfl
    | positional _ _ ih => rw [ih]
    | keep _ _ _ ih => rw [ih]
    | take d _ hd hr => exact absurd hr (room d _ _ hd)
  · rintro rfl
    induction os' with
    | nil => exact .nil
    | cons o os ih =>
      by_cases h : o.stringKey = []
      · exact .positional h ih
      · refine .keep h ?_ ih
        by_cases hk : Known o.stringKey
        · have hd := (denotes_iff (env := env) _ _).2 ⟨rfl, hk⟩
          exact .inr ⟨_, hd, room _ _ _ hd⟩
        · exact .inl ((unknown_iff _).2 hk)

theorem labels_exists (os : List Opt) : ∀ n, ∃ res, Labels (parser env) n os res := by
  induction os with
  | nil => exact fun n => ⟨[], .nil⟩
  | cons o os ih =>
    intro n
    by_cases h : o.stringKey = []
    · obtain ⟨res, hr⟩ := ih (n + 1)
      exact ⟨_, .positional [] h rfl hr⟩
    · obtain ⟨res, hr⟩ := ih n
      exact ⟨_, .named h hr⟩

theorem labels_said {n : Nat} {os res : List Opt} (h : Labels (parser env) n os res) :
    said res (str% "path") = said os (str% "path") ∧ (occurrences res (str% "path")).map (·.value) = (occurrences os (str% "path")).map (·.value) := by
  have key : (occurrences res (str% "path")).map (·.value) = (occurrences os (str% "path")).map (·.value) := by
    unfold occurrences
    induction h with
    | nil => rfl
    | @named n o os os' h _ ih =>
      rw [List.filter_cons, List.filter_cons]
      by_cases ho : o.stringKey = str% "path" ∧ str% "path" ≠ [] ∧ o.unregistered = false
      · rw [if_pos (by simpa using ho), if_pos (by simpa using ho), List.map_cons, List.map_cons, ih]
      · rw [if_neg (by simpa using ho), if_neg (by simpa using ho), ih]
    | @positional n o os os' name h hn _ ih =>
      have hn : name = [] := hn
      rw [List.filter_cons, List.filter_cons, if_neg (by simp [hn]), if_neg (by simp [h]), ih]
  refine ⟨?_, key⟩
  have e : ∀ l : List Opt, l.flatMap (·.value) = (l.map (·.value)).flatten := fun l => by rw [List.flatMap_def]
  unfold said
  rw [e, e, key]

theorem line_iff (args : List Str) (hlen : args.length < 2147483648) (vs : List Str) :
    Line args vs ↔ ∃ p, (parser env).parse args = .ok p ∧ said p.options (str% "path") = vs := by
  have hg := C61_grammar (parser env) rfl (by
    intro d hd n hn
    rw [List.mem_singleton.1 hd, reported]
    decide) args hlen
  constructor
  · intro h
    obtain ⟨os, h1, h2⟩ := line_reads (env := env) h
    obtain ⟨res, hr⟩ := labels_exists (env := env) os 0
    have hrun := (hg res).2 ⟨os, os, h1, (gathers_iff _ _).2 rfl, hr⟩
    refine ⟨_, by unfold Cmdline.parse; rw [hrun], ?_⟩
    rw [show said res (str% "path") = _ from (labels_said hr).1, h2]
  · rintro ⟨p, hp, rfl⟩
    obtain ⟨os, os', h1, h2, h3⟩ := (hg _).1 (OnceOnlyParser.run_of hp).2
    rw [(labels_said h3).1, (gathers_iff _ _).1 h2]
    exact reads_line h1

def table : List (Str × Wants) := [(str% "path", .one .str)]

theorem table_ok (env : Env) : Programs.Table env (desc env) table where
  fits := .cons ⟨rfl, .one _ _ rfl rfl rfl rfl rfl⟩ .nil
  names := by decide
  distinct := (by decide : [str% "-p", str% "path"].Nodup)
  kinds := by
    intro q hq
    cases List.mem_singleton.1 hq
    exact .inr (.inr (.inl rfl))

theorem notify_ok {args : List Str} {p : Parsed} (h : (parser env).parse args = .ok p) {m : VarMap} (hm : store p {} = (m, none)) : m.notify.2 = none := by
  cases hf : m.notify.2 with
  | none => rfl
  | some f =>
    exfalso
    obtain ⟨e, he, s, hs, hnf⟩ := (C38_required [(p, false)] m (.ok hm (.nil _))).2 (by
      rintro k n ⟨q, hq, d, hd, -, -, hr, -⟩
      cases List.mem_singleton.1 hq
      rw [(Spec.OnceOnlyParser.run_of h).1] at hd
      rw [List.mem_singleton.1 hd] at hr
      cases hr) f hf
    have hS : Stores {} [(p, false)] m := .cons hm (.nil _)
    have hord := stores_ordered hS ordered_empty
    obtain ⟨q, hq, d, hd, hsem, -⟩ := stores_option hS (k := e.1) (v := e.2) ((SMap.get?_eq_some hord.map e.1 e.2).2 he)
    cases List.mem_singleton.1 hq
    rw [(Spec.OnceOnlyParser.run_of h).1] at hd
    rw [hs] at hsem
    cases hsem
    rw [List.mem_singleton.1 hd] at hnf
    cases hnf

theorem said_length {os : List Opt} {n : Str} (h : ∀ l ∈ (occurrences os n).map (·.value), l.length = 1) : (said os n).length = (occurrences os n).length := by
  unfold said
  generalize occurrences os n = l at h
  induction l with
  | nil => rfl
  | cons o l ih =>
    rw [List.flatMap_cons, List.length_append, ih fun x hx => h x (by rw [List.map_cons]; exact List.mem_cons_of_mem _ hx), h o.value (by simp), List.length_cons, Nat.add_comm]

theorem main_error {prog : Str} {args : List Str} {f : Fail} (hu : ∀ u, f ≠ .ub u)
    (h : Hierarchy.load ((parser env).parse args) {} = .error f) : main env (prog :: args) = .exits 1 := by
  unfold main
  rw [Programs.commandLine_eq, show ({ desc := desc env } : Cmdline) = parser env from rfl, h]
  cases f with
  | ub u => exact absurd rfl (hu u)
  | _ => rfl

theorem main_ok {prog : Str} {args : List Str} {p : Parsed} (hp : (parser env).parse args = .ok p) {m : VarMap} (hm : store p {} = (m, none)) :
    main env (prog :: args) = check m := by
  have hn := notify_ok hp hm
  unfold main Hierarchy.load
  rw [Programs.commandLine_eq, show ({ desc := desc env } : Cmdline) = parser env from rfl, hp]
  simp only [hm]
  cases hn' : m.notify with
  | mk es e =>
    rw [hn'] at hn
    cases hn
    rfl

theorem library_not_ub {f : Fail} (h : LibraryException f) (u : UB) : f ≠ .ub u := by
  rintro rfl
  cases h

theorem program (env : Env) (prog : Str) (args : List Str) (hlen : args.length < 2147483648) :
    (Line args [str% "initial"] → main env (prog :: args) = .exits 0) ∧ (¬ Line args [str% "initial"] → main env (prog :: args) = .exits 1) := by
  have hT := table_ok env
  have hline := line_iff (env := env) args hlen [str% "initial"]
  have ht : ∀ d ∈ (parser env).desc, ∃ T, Narrow d.semantic T := by
    intro d hd
    rw [List.mem_singleton.1 hd]
    exact ⟨_, .typed env _ ⟨nofun, nofun⟩ rfl⟩
  have hfail : ∀ f, LibraryException f → Hierarchy.load ((parser env).parse args) {} = .error f →
      (¬ Line args [str% "initial"]) → (Line args [str% "initial"] → main env (prog :: args) = .exits 0) ∧ (¬ Line args [str% "initial"] → main env (prog :: args) = .exits 1) :=
    fun f hf h hno => ⟨fun h => absurd h hno, fun _ => main_error (library_not_ub hf) h⟩
  rcases C113_otherwise env _ hT.parser ht args with ⟨p, m, h1, h2⟩ | ⟨f, h1, h2⟩ | ⟨p, m, f, h1, h2, h3⟩
  · have h1 : (parser env).parse args = .ok p := h1
    rw [main_ok h1 h2]
    have hc : Programs.count m (str% "path") = true ↔ Mentions p.options (str% "path") := hT.count_iff hlen h1 h2 (.head _) rfl rfl
    have hs : Line args [str% "initial"] ↔ said p.options (str% "path") = [str% "initial"] := by
      rw [hline]
      constructor
      · rintro ⟨p', h', hs⟩
        cases h1.symm.trans h'
        exact hs
      · exact fun h => ⟨p, h1, h⟩
    rw [hs]
    unfold check
    by_cases hg : Mentions p.options (str% "path")
    · rw [if_pos (hc.2 hg)]
      obtain ⟨v, s, hr, hv⟩ := hT.given hlen h1 h2 (.head _) hg
      obtain ⟨t, ht, rfl⟩ := Programs.read_string hr
      rw [ht]
      have hget : (m.get (str% "path")).as (.scalar .str) = .ok (.scalar (.str t)) := by
        unfold VarMap.get
        rw [hv]
        rfl
      rw [hget]
      dsimp only
      by_cases hi : t = str% "initial"
      · rw [if_pos hi, hi]
        exact ⟨fun _ => rfl, fun h => absurd rfl h⟩
      · rw [if_neg hi]
        exact ⟨fun h => absurd (List.cons.inj h).1 hi, fun _ => rfl⟩
    · rw [if_neg fun h => hg (hc.1 h)]
      exact ⟨fun h => absurd (Programs.said_mentions h) hg, fun _ => rfl⟩
  · have h1 : (parser env).parse args = .error f := h1
    refine hfail f h2 (by unfold Hierarchy.load; rw [h1]) ?_
    rw [hline, h1]
    rintro ⟨p, hp, -⟩
    cases hp
  · have h1 : (parser env).parse args = .ok p := h1
    refine hfail f h3 (by unfold Hierarchy.load; simp only [h1, h2]) ?_
    rw [hline]
    rintro ⟨p', hp, hs⟩
    cases h1.symm.trans hp
    have hval := hT.parser.values hlen h1 (List.mem_singleton.2 rfl : path env ∈ desc env) rfl
    have hl := said_length (os := p.options) (n := str% "path") fun l hl => Nat.le_antisymm (hval l hl).2 (hval l hl).1
    obtain ⟨m', hm'⟩ := (hT.succeeds hlen h1).2 (by
      intro q hq
      cases List.mem_singleton.1 hq
      refine ⟨?_, fun ty h => by cases h⟩
      unfold AtMostOnce
      rw [← hl, hs]
      exact Nat.le_refl 1)
    rw [h2] at hm'
    cases hm'

end Quick

open Quick

/-- What is read from the command line, in full. -/
theorem C158_command_line (env : Env) (prog : Str) (args : List Str) (hlen : args.length < 2147483648) (vs : List Str) :
    (∃ p, parseCommandLine (prog :: args) (Quick.desc env) = .ok p ∧ said p.options (str% "path") = vs) ↔ Line args vs :=
  (line_iff args hlen vs).symm

/-- The program returns 0 or 1: 0 exactly for the command lines that give the option once, as `initial`. -/
theorem C158_exit_code (env : Env) (prog : Str) (args : List Str) (hlen : args.length < 2147483648) :
    (Line args [str% "initial"] → Quick.main env (prog :: args) = .exits 0) ∧ (¬ Line args [str% "initial"] → Quick.main env (prog :: args) = .exits 1) :=
  program env prog args hlen

/-- Abbreviated, after a positional argument, and with another before the end; and `-p=initial` is a failure: the value has the equal sign. -/
example (env : Env) : Quick.main env [str% "quick", str% "x", str% "--pa", str% "initial", str% "--=y", str% "--", str% "-p"] = .exits 0 ∧
    Quick.main env [str% "quick", str% "-p=initial"] = .exits 1 := by
  constructor
  · exact (C158_exit_code env _ _ (by decide)).1 (.word _ (.inl (by decide)) (.next (str% "pa") _ (.inl ⟨by decide, by decide⟩)
      ⟨by decide, fun n hn h => by cases h⟩ (.nameless (str% "y") (by decide) (.stop _))))
  · refine (C158_exit_code env _ _ (by decide)).2 fun h => ?_
    have h' : Line [str% "-p=initial"] [str% "=initial"] := .short (str% "=initial") (by decide) .nil
    have a := (C158_command_line env [] _ (by decide) _).2 h
    have b := (C158_command_line env [] _ (by decide) _).2 h'
    obtain ⟨p, h1, h2⟩ := a
    obtain ⟨q, h3, h4⟩ := b
    cases h1.symm.trans h3
    cases h2.symm.trans h4

end PO
