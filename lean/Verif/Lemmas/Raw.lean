import Verif.Model.RawText
import Verif.Lemmas.Str
import Verif.Props.Parse
/-
The statement-by-statement model is the other one (command line).
-/
namespace PO.Raw

@[simp] theorem bind_ok {α β : Type} (x : α) (f : α → Raw β) : ((Except.ok x : Raw α) >>= f) = f x := rfl
@[simp] theorem bind_error {α β : Type} (e : RawFail) (f : α → Raw β) : ((Except.error e : Raw α) >>= f) = .error e := rfl
@[simp] theorem pure_ok {α : Type} (x : α) : (pure x : Raw α) = .ok x := rfl
@[simp] theorem throw_error {α : Type} (e : RawFail) : (throw e : Raw α) = .error e := rfl

@[simp] theorem of_ok {α : Type} (x : α) : of (.ok x) = (.ok x : Raw α) := rfl
theorem of_error {α β : Type} {f : Fail} {e : RawFail} (h : of (.error f : Except Fail α) = .error e) :
    of (.error f : Except Fail β) = .error e := by
  cases f <;> first | (simp only [of] at h ⊢; injection h with h; rw [h]) | skip
  rename_i u
  cases u <;> (simp only [of, access] at h ⊢; injection h with h; rw [h])

/-- Sequencing, for functions of the other model. -/
theorem of_bind {α β : Type} (r : Except Fail α) (g : α → Except Fail β) :
    of (r >>= g) = (of r >>= fun x => of (g x)) := by
  cases r with
  | ok x => rfl
  | error f =>
    cases f with
    | ub u => cases u <;> rfl
    | _ => rfl

@[simp] theorem get_zero {α : Type} (x : α) (v : List α) : get (x :: v) 0 = .ok x := rfl
@[simp] theorem get_one {α : Type} (x y : α) (v : List α) : get (x :: y :: v) 1 = .ok y := rfl
@[simp] theorem get_nil {α : Type} (i : Nat) : get ([] : List α) i = .error (.oob .index) := by simp [get]
@[simp] theorem popFront_cons {α : Type} (x : α) (v : List α) : popFront (x :: v) = .ok v := rfl
theorem get_lt {α : Type} {v : List α} {i : Nat} (h : i < v.length) : get v i = .ok v[i] := by simp [get, h]
theorem back_cons {α : Type} {v : List α} (h : v ≠ []) : back v = .ok (v.getLast h) := by
  simp [back, List.getLast?_eq_some_getLast h]
theorem sub_le {a b : Nat} (h : b ≤ a) : sub a b = .ok (a - b) := by simp [sub, h]
theorem substr_le {s : Str} {pos n : Nat} (h : pos ≤ s.length) : substr s pos n = .ok (PO.substr s pos n) := by
  simp [substr, h, PO.substr]
theorem substrFrom_le {s : Str} {pos : Nat} (h : pos ≤ s.length) : substrFrom s pos = .ok (s.drop pos) := by simp [substrFrom, h]

theorem lowerFrom_eq (str : Str) (i : Nat) (result : Str) : lowerFrom str i result = .ok (result ++ PO.toLower (str.drop i)) := by
  fun_induction lowerFrom str i result with
  | case1 i result h e he => rw [get_lt h] at he; cases he
  | case2 i result h c hc ih =>
    rw [get_lt h] at hc
    cases hc
    rw [ih, List.drop_eq_getElem_cons h]
    simp only [PO.toLower, List.map_cons, List.append_assoc, List.singleton_append]
  | case3 i result h => simp [PO.toLower, List.drop_eq_nil_of_le (Nat.le_of_not_lt h)]

theorem lower_eq (str : Str) : lower str = .ok (PO.toLower str) := by simp [lower, lowerFrom_eq]

theorem matchLoop_eq (option : Str) (approx longIcase : Bool) (ns : List Str) (r : MatchResult) :
    matchLoop option approx longIcase ns r = .ok (OptionDesc.matchLongs option approx longIcase ns r) := by
  induction ns generalizing r with
  | nil => rfl
  | cons n ns ih =>
    have hl : (if longIcase = true then lower n else pure n) = (Except.ok (if longIcase = true then PO.toLower n else n) : Raw Str) := by
      split
      · exact lower_eq n
      · rfl
    rw [matchLoop, hl, OptionDesc.matchLongs]
    generalize (if longIcase = true then PO.toLower n else n) = m
    dsimp only [bind_ok]
    by_cases hm : m = []
    · rw [if_neg (by simp [hm]), if_pos hm, ih]
    · rw [if_pos hm, if_neg hm, back_cons hm]
      dsimp only [bind_ok]
      have h1 : (if r = .noMatch ∧ m.getLast hm = '*' then do
          let n ← sub m.length 1
          let stem ← substr m 0 n
          pure (if findSub option stem = some 0 then MatchResult.approximateMatch else r)
        else pure r) = (Except.ok (if r = .noMatch ∧ m.getLast? = some '*' then
          if findSub option (PO.substr m 0 (m.length - 1)) = some 0 then MatchResult.approximateMatch else r
        else r) : Raw MatchResult) := by
        have e : (m.getLast? = some '*') = (m.getLast hm = '*') := by
          rw [List.getLast?_eq_some_getLast hm]; simp
        simp only [e]
        split
        · rw [sub_le (by cases m <;> simp_all)]
          dsimp only [bind_ok]
          rw [substr_le (Nat.zero_le _)]
          rfl
        · rfl
      rw [h1]
      dsimp only [bind_ok]
      split
      · rfl
      · split
        · split
          · rw [ih]
          · rw [ih]
        · rw [ih]

/-- `match` makes no access out of range. -/
theorem match_eq (d : OptionDesc) (option : Str) (approx longIcase shortIcase : Bool) :
    Raw.match d option approx longIcase shortIcase = .ok (d.match option approx longIcase shortIcase) := by
  have hl : ∀ (b : Bool) (s : Str), (if b = true then lower s else pure s) =
      (Except.ok (if b = true then PO.toLower s else s) : Raw Str) := by
    intro b s
    split
    · exact lower_eq s
    · rfl
  rw [Raw.match, OptionDesc.match, hl]
  dsimp only [bind_ok]
  rw [matchLoop_eq]
  dsimp only [bind_ok]
  generalize OptionDesc.matchLongs _ _ _ _ _ = r
  generalize (if longIcase = true then PO.toLower option else option) = o
  by_cases h : r = .fullMatch
  · rw [if_neg (by simpa using h), if_pos h]; rfl
  · rw [if_pos h, if_neg h, hl]
    dsimp only [bind_ok]
    generalize (if shortIcase = true then PO.toLower d.shortName else d.shortName) = s
    split <;> rfl

theorem canonicalDisplayName_eq (d : OptionDesc) (style : Nat) :
    canonicalDisplayName d style = .ok (d.canonicalDisplayName style) := by
  obtain ⟨short, longs, _, _⟩ := d
  unfold canonicalDisplayName OptionDesc.canonicalDisplayName
  match longs, short with
  | [], [] => rfl
  | [], [_] => rfl
  | [], [_, _] => simp; (repeat' split) <;> simp_all
  | [], _ :: _ :: _ :: _ => simp
  | n :: _, [] => simp; (repeat' split) <;> simp_all
  | n :: _, [_] => simp; (repeat' split) <;> simp_all
  | n :: _, [_, _] => simp; (repeat' split) <;> simp_all
  | n :: _, _ :: _ :: _ :: _ => simp; (repeat' split) <;> simp_all

theorem formatName_eq (d : OptionDesc) : formatName d = of d.formatName := by
  obtain ⟨short, longs, _, _⟩ := d
  unfold formatName OptionDesc.formatName
  cases longs <;> cases short <;> simp <;> rfl

theorem setNames_eq (d : OptionDesc) (names : Str) : setNames d names = of (d.setNames names) := by
  unfold setNames OptionDesc.setNames
  dsimp only
  generalize getlines ',' names = ns
  match ns with
  | [] => rfl
  | [n] => rfl
  | n :: m :: ns =>
    have hne : n :: m :: ns ≠ [] := by simp
    rw [if_neg hne, if_neg hne, if_pos (by simp), if_pos (by simp), back_cons hne, List.getLast?_eq_some_getLast hne]
    simp only [bind_ok, popBack, if_neg hne]
    generalize (n :: m :: ns).getLast hne = last
    have hd : (n :: m :: ns).dropLast ≠ [] := by simp
    generalize (n :: m :: ns).dropLast = ds at hd
    match last with
    | [] => rfl
    | _ :: _ :: _ => rfl
    | [a] =>
      match ds with
      | [] => exact absurd rfl hd
      | [[]] => rfl
      | [_ :: _] => rfl
      | x :: y :: ds => simp

/-! ### Command line -/

theorem parseLong_eq (c : Cmdline) (args : List Str) : parseLong c args = of (c.parseLong args) := by
  cases args with
  | nil => rfl
  | cons tok rest =>
    unfold parseLong Cmdline.parseLong
    dsimp only [bind_ok, get_zero]
    match tok with
    | [] => rfl
    | [_] => rfl
    | [_, _] => rfl
    | a :: b :: x :: t =>
      by_cases ha : a = '-'
      · by_cases hb : b = '-'
        · subst ha hb
          simp only [List.length_cons, get_zero, get_one, bind_ok, List.getElem?_cons_zero, List.getElem?_cons_succ]
          rw [if_pos (by omega), if_pos trivial, if_pos trivial, if_pos ⟨by omega, trivial, trivial⟩]
          cases h : findChar ('-' :: '-' :: x :: t) '=' with
          | none => rfl
          | some p =>
            obtain ⟨u, v, huv, hu, hp⟩ := findChar_eq_some.1 h
            have hp2 : 2 ≤ p := by
              match u, huv, hp with
              | [], huv, _ => simp at huv
              | [_], huv, _ => simp at huv
              | _ :: _ :: _, _, hp => simp at hp; omega
            have hpl : p + 1 ≤ ('-' :: '-' :: x :: t).length := by rw [huv]; simp; omega
            dsimp only
            rw [sub_le hp2]
            dsimp only [bind_ok]
            rw [substr_le (by simp), substrFrom_le hpl]
            dsimp only [bind_ok]
            split <;> rfl
        · simp [ha, hb]
      · simp [ha]

theorem shortLoop_eq (c : Cmdline) (tok name adjacent : Str) (result : List Opt) :
    shortLoop c tok name adjacent result = of (c.shortLoop tok name adjacent) >>= fun os => .ok (result ++ os) := by
  induction adjacent generalizing name result with
  | nil =>
    rw [shortLoop, Cmdline.shortLoop]
    cases h : c.findShort name with
    | error f => cases f <;> first | rfl | (rename_i u; cases u <;> rfl)
    | ok d => simp
  | cons a adj ih =>
    rw [shortLoop, Cmdline.shortLoop]
    cases h : c.findShort name with
    | error f => cases f <;> first | rfl | (rename_i u; cases u <;> rfl)
    | ok d =>
      simp only [of_ok]
      by_cases ht : c.takesNoValue d = true
      · rw [if_pos ⟨ht, by simp⟩, if_pos ht]
        simp only [get_zero, popFront_cons]
        rw [ih]
        cases c.shortLoop tok ['-', a] adj with
        | error f => cases f <;> first | rfl | (rename_i u; cases u <;> rfl)
        | ok os => simp
      · rw [if_neg (by simp [ht]), if_neg ht]
        simp

theorem parseShort_eq (c : Cmdline) (args : List Str) : parseShort c args = of (c.parseShort args) := by
  cases args with
  | nil => rfl
  | cons tok rest =>
    unfold parseShort Cmdline.parseShort
    dsimp only [bind_ok, get_zero]
    match tok with
    | [] => rfl
    | [_] => rfl
    | a :: b :: t =>
      by_cases ha : a = '-'
      · by_cases hb : b = '-'
        · simp [ha, hb]
        · subst ha
          simp only [List.length_cons, get_zero, get_one, bind_ok, List.getElem?_cons_zero, List.getElem?_cons_succ]
          rw [if_pos (by omega), if_pos trivial, if_pos hb, if_pos ⟨by omega, trivial, by simpa using hb⟩]
          rw [substr_le (by simp), substrFrom_le (by simp)]
          dsimp only [bind_ok]
          rw [shortLoop_eq]
          cases c.shortLoop _ _ _ with
          | error f => cases f <;> first | rfl | (rename_i u; cases u <;> rfl)
          | ok os => simp
      · simp [ha]

theorem parseDos_eq (args : List Str) : parseDos args = of (Cmdline.parseDos args) := by
  cases args with
  | nil => rfl
  | cons tok rest =>
    unfold parseDos Cmdline.parseDos
    dsimp only [bind_ok, get_zero]
    match tok with
    | [] => rfl
    | [_] => rfl
    | a :: b :: t =>
      by_cases ha : a = '/'
      · subst ha
        simp only [List.length_cons, get_zero, bind_ok, List.getElem?_cons_zero]
        rw [if_pos (by omega), if_pos trivial, if_pos ⟨by omega, trivial⟩]
        rw [substr_le (by simp), substrFrom_le (by simp)]
        cases t <;> simp
      · simp [ha]

theorem context_of {α : Type} (c : Cmdline) (name token : Str) (r : Except Fail α) :
    context c name token (of r) = of (match r with | .error f => .error (f.addContext name token c.canonicalPrefix) | .ok x => .ok x) := by
  cases r with
  | ok x => rfl
  | error f => cases f <;> first | rfl | (rename_i u; cases u <;> rfl)

theorem disguisedName_eq {tok : Str} (h : tok ≠ []) (h0 : tok[0]? ≠ some '=') :
    disguisedName tok = .ok (Cmdline.disguisedName tok) := by
  unfold disguisedName Cmdline.disguisedName
  cases tok with
  | nil => exact absurd rfl h
  | cons a t =>
    cases hf : findChar (a :: t) '=' with
    | none => exact substrFrom_le (Nat.le_add_left 1 t.length)
    | some p =>
      obtain ⟨u, v, huv, hu, hp⟩ := findChar_eq_some.1 hf
      have : 1 ≤ p := by
        cases u with
        | nil => rw [List.nil_append] at huv; injection huv with h1; exact absurd (by rw [h1]; rfl) h0
        | cons => rw [← hp]; simp
      dsimp only
      rw [sub_le this]
      rw [bind_ok, substr_le (show 1 ≤ (a :: t).length from Nat.le_add_left 1 t.length)]

theorem parseDisguised_eq (c : Cmdline) (args : List Str) : parseDisguised c args = of (c.parseDisguised args) := by
  cases args with
  | nil => rfl
  | cons tok rest =>
    unfold parseDisguised Cmdline.parseDisguised
    dsimp only [bind_ok, get_zero]
    match tok with
    | [] => rfl
    | [_] => rfl
    | a :: b :: t =>
      simp only [List.length_cons, get_zero, get_one, bind_ok, List.getElem?_cons_zero, List.getElem?_cons_succ, Option.some.injEq,
        ne_eq]
      rw [if_pos (by omega)]
      by_cases h : (a = '-' ∧ ¬ b = '-') ∨ (active c.style Style.allowSlashForShort = true ∧ a = '/')
      · have h2 : t.length + 1 + 1 ≥ 2 ∧ ((a = '-' ∧ ¬ b = '-') ∨ (active c.style Style.allowSlashForShort = true ∧ a = '/')) :=
          ⟨by omega, h⟩
        rw [if_pos h, if_pos h2, disguisedName_eq (by simp) (by rcases h with h | h <;> simp [h])]
        dsimp only [bind_ok]
        rw [context_of]
        cases c.lookup (Cmdline.disguisedName (a :: b :: t)) with
        | error f => cases f <;> first | rfl | (rename_i u; cases u <;> rfl)
        | ok o =>
          cases o with
          | none => rfl
          | some d =>
            simp only [of_ok, bind_ok, popFront_cons]
            have hu : (if a = '/' then ('-' :: a :: b :: t).set 1 '-' else '-' :: a :: b :: t) = Cmdline.undisguise (a :: b :: t) := by
              split
              · subst_vars; rfl
              · unfold Cmdline.undisguise; split
                · simp_all
                · rfl
            rw [hu, parseLong_eq, context_of]
            cases c.parseLong (Cmdline.undisguise (a :: b :: t) :: rest) with
            | error f => cases f <;> first | rfl | (rename_i u; cases u <;> rfl)
            | ok r => rfl
      · rw [if_neg h, if_neg (fun hh => h hh.2)]
        rfl

theorem terminatorFrom_eq (args : List Str) (i : Nat) (result : List Opt) :
    terminatorFrom args i result =
      .ok (result ++ (args.drop i).map (fun a => { value := [a], originalTokens := [a], positionKey := intMax })) := by
  fun_induction terminatorFrom args i result with
  | case1 i result h e he => rw [get_lt h] at he; cases he
  | case2 i result h a ha ih =>
    rw [get_lt h] at ha
    cases ha
    rw [ih, List.drop_eq_getElem_cons h]
    simp only [List.map_cons, List.append_assoc, List.singleton_append]
  | case3 i result h => simp [List.drop_eq_nil_of_le (Nat.le_of_not_lt h)]

theorem parseTerminator_eq (args : List Str) : parseTerminator args = of (Cmdline.parseTerminator args) := by
  cases args with
  | nil => rfl
  | cons tok rest =>
    unfold parseTerminator Cmdline.parseTerminator
    dsimp only [bind_ok, get_zero]
    rw [terminatorFrom_eq]
    split <;> rfl

theorem parseAdditional_eq (f : Str → Str × Str) (args : List Str) : parseAdditional f args = of (Cmdline.parseAdditional f args) := by
  cases args with
  | nil => rfl
  | cons tok rest =>
    unfold parseAdditional Cmdline.parseAdditional
    dsimp only [bind_ok, get_zero]
    by_cases h : (f tok).1 = []
    · simp [h]
    · by_cases h2 : (f tok).2 = [] <;> simp [h, h2]

/-- The style parsers here are those of the other model. -/
theorem parsers_eq (c : Cmdline) : parsers c = c.parsers.map (fun p args => of (p args)) := by
  have e : ∀ c : Cmdline, parseLong c = fun args => of (c.parseLong args) := fun c => funext (parseLong_eq c)
  have e2 : ∀ c : Cmdline, parseDisguised c = fun args => of (c.parseDisguised args) := fun c => funext (parseDisguised_eq c)
  have e3 : ∀ c : Cmdline, parseShort c = fun args => of (c.parseShort args) := fun c => funext (parseShort_eq c)
  have e4 : parseDos = fun args => of (Cmdline.parseDos args) := funext parseDos_eq
  have e5 : parseTerminator = fun args => of (Cmdline.parseTerminator args) := funext parseTerminator_eq
  have e6 : ∀ f, parseAdditional f = fun args => of (Cmdline.parseAdditional f args) := fun f => funext (parseAdditional_eq f)
  unfold parsers Cmdline.parsers
  simp only [List.map_append, e, e2, e3, e4, e5, e6]
  congr 1; congr 1; congr 1; congr 1; congr 1; congr 1
  all_goals (split <;> simp_all)

theorem of_err_map {α β : Type} {r : Except Fail α} (g : α → Raw β) {f : Fail} (h : r = .error f) :
    (of r >>= g) = of (.error f : Except Fail β) := by
  subst h
  cases f <;> first | rfl | (rename_i u; cases u <;> rfl)

theorem lookahead_eq (ps : List StyleParser) (i : Nat) (next : List Str) :
    lookahead (ps.map (fun p args => of (p args))) i next [] = of (Cmdline.lookahead (ps.drop i) next) := by
  generalize hn : ps.length - i = n
  induction n generalizing i next with
  | zero =>
    rw [lookahead, if_neg (by simp; omega), List.drop_eq_nil_of_le (by omega)]
    rfl
  | succ n ih =>
    have hi : i < ps.length := by omega
    rw [lookahead, if_pos ⟨rfl, by simpa using hi⟩, get_lt (by simpa using hi), List.drop_eq_getElem_cons hi]
    simp only [List.getElem_map, Cmdline.lookahead]
    cases ps[i] next with
    | error f => cases f <;> first | rfl | (rename_i u; cases u <;> rfl)
    | ok r =>
      obtain ⟨os, rest⟩ := r
      simp only [of_ok]
      cases os with
      | nil => rw [if_pos rfl]; exact ih (i + 1) rest (by omega)
      | cons o os => rw [lookahead, if_neg (by simp), if_neg (by simp)]; rfl

theorem grab_eq (c : Cmdline) (ps : List StyleParser) (n : Nat) (other : List Str) (opt : Opt) (orig : Str) :
    grab c (ps.map (fun p args => of (p args))) n other opt orig = of (c.grab ps n other opt orig) := by
  induction n generalizing other opt orig with
  | zero => rfl
  | succ n ih =>
    cases other with
    | nil => rfl
    | cons t ts =>
      rw [grab, Cmdline.grab, if_neg (by simp)]
      simp only [get_zero, bind_ok, lookahead_eq, context_of, List.drop_zero, popFront_cons]
      cases Cmdline.lookahead ps [t] with
      | error f => exact of_err_map _ rfl
      | ok os =>
        simp only [of_ok, bind_ok]
        cases os with
        | nil => simp [ih]
        | cons o os =>
          simp only [ne_eq, List.cons_ne_nil, not_false_eq_true, if_true]
          cases c.lookup t with
          | error f => exact of_err_map _ rfl
          | ok d =>
            cases d with
            | none => simp [ih]
            | some d => rfl

theorem finishOption_eq (c : Cmdline) (ps : List StyleParser) (opt : Opt) (other : List Str) :
    finishOption c (ps.map (fun p args => of (p args))) opt other = of (c.finishOption ps opt other) := by
  unfold finishOption Cmdline.finishOption
  by_cases hk : opt.stringKey = []
  · rw [if_pos hk, if_pos hk]; rfl
  · rw [if_neg hk, if_neg hk]
    have ho : (if opt.originalTokens.length ≠ 0 then get opt.originalTokens 0 else pure opt.stringKey) =
        (Except.ok (Cmdline.origFor opt) : Raw Str) := by
      unfold Cmdline.origFor
      cases opt.originalTokens <;> simp
    rw [ho]
    simp only [bind_ok, context_of]
    cases c.lookup opt.stringKey with
    | error f => exact of_err_map _ rfl
    | ok d =>
      simp only [of_ok, bind_ok]
      cases d with
      | none =>
        dsimp only
        split <;> rfl
      | some d =>
        dsimp only
        split
        · split
          · rfl
          · have hm : (if opt.value.length ≤ d.semantic.minTokens then sub d.semantic.minTokens opt.value.length else pure 0) =
                (Except.ok (d.semantic.minTokens - opt.value.length) : Raw Nat) := by
              split
              · rename_i h; exact sub_le h
              · rename_i h; rw [Nat.sub_eq_zero_of_le (by omega)]; rfl
            rw [hm]
            exact grab_eq c ps _ other _ _
        · rfl

theorem finishOption_nil {c : Cmdline} {ps : List StyleParser} {o o' : Opt} {e : List Str}
    (h : c.finishOption ps o [] = .ok (o', e)) : e = [] := by
  unfold Cmdline.finishOption at h
  have hg : ∀ n opt orig, c.grab ps n [] opt orig = .ok (opt, []) := by intro n opt orig; cases n <;> rfl
  split at h
  · cases h; rfl
  · dsimp only at h
    split at h
    · cases h
    · split at h
      · cases h; rfl
      · cases h
    · split at h
      · split at h
        · cases h
        · rw [hg] at h; cases h; rfl
      · cases h

theorem finishFirst_eq (c : Cmdline) (ps : List StyleParser) (done : List Opt) (next : List Opt) (hne : next ≠ [])
    (args : List Str) :
    (do let next' ← finishFirst c (ps.map (fun p args => of (p args))) (done ++ next) done.length []
        let last ← back next'
        let (last', args2) ← finishOption c (ps.map (fun p args => of (p args))) last args
        let init ← popBack next'
        pure (init ++ [last'], args2)) =
      of ((c.finishAll ps next args).map (fun r => (done ++ r.1, r.2))) := by
  induction next generalizing done with
  | nil => exact absurd rfl hne
  | cons o os ih =>
    rw [finishFirst.eq_def]
    have hs : sub (done ++ o :: os).length 1 = .ok (done.length + os.length) := by
      rw [sub_le (by simp; omega)]; simp
    split
    · rename_i h; rw [hs] at h; cases h
    · rename_i n h
      rw [hs] at h
      cases h
      cases os with
      | nil =>
        rw [if_neg (by simp)]
        have hb : back (done ++ [o]) = .ok o := by simp [back]
        have hp : popBack (done ++ [o]) = .ok done := by simp [popBack]
        simp only [bind_ok, hb, hp, finishOption_eq, Cmdline.finishAll]
        cases c.finishOption ps o args with
        | error f => exact of_err_map _ rfl
        | ok r => rfl
      | cons o2 os =>
        rw [if_pos (by simp), get_lt (by simp)]
        simp only [List.getElem_append_right (Nat.le_refl _), Nat.sub_self, List.getElem_cons_zero, finishOption_eq,
          Cmdline.finishAll]
        cases hf : c.finishOption ps o [] with
        | error f => cases f <;> first | rfl | (rename_i u; cases u <;> rfl)
        | ok r =>
          obtain ⟨o', e'⟩ := r
          cases finishOption_nil hf
          have hset : (done ++ o :: o2 :: os).set done.length o' = (done ++ [o']) ++ o2 :: os := by simp
          have := ih (done ++ [o']) (by simp)
          simp only [List.length_append, List.length_singleton, finishOption_eq] at this
          simp only [of_ok, hset, this]
          cases c.finishAll ps (o2 :: os) args with
          | error f => rfl
          | ok r => simp [Except.map]

theorem tryFrom_eq (c : Cmdline) (ps : List StyleParser) (i : Nat) (args : List Str) (result : List Opt) (ha : args ≠ []) :
    (do let (ok, result, args) ← tryFrom c (ps.map (fun p args => of (p args))) i args result
        if ok then pure (result, args)
        else
          let a ← get args 0
          pure (result ++ [{ value := [a], originalTokens := [a] }], ← popFront args)) =
      of ((c.tryParsers ps (ps.drop i) args).map (fun r => (result ++ r.1, r.2))) := by
  generalize hn : ps.length - i = n
  induction n generalizing i args result with
  | zero =>
    rw [tryFrom, if_neg (by simp; omega), List.drop_eq_nil_of_le (by omega)]
    cases args with
    | nil => exact absurd rfl ha
    | cons a as => rfl
  | succ n ih =>
    have hi : i < ps.length := by omega
    rw [tryFrom, if_pos (by simpa using hi), get_lt (by simpa using hi), List.drop_eq_getElem_cons hi]
    simp only [List.getElem_map, Cmdline.tryParsers]
    cases ps[i] args with
    | error f => cases f <;> first | rfl | (rename_i u; cases u <;> rfl)
    | ok r =>
      obtain ⟨next, args1⟩ := r
      simp only [of_ok]
      have hfin : (if next ≠ [] then (do
            let next ← finishFirst c (ps.map (fun p args => of (p args))) next 0 []
            let last ← back next
            let (last', args2) ← finishOption c (ps.map (fun p args => of (p args))) last args1
            let init ← popBack next
            pure (result ++ (init ++ [last']), args2))
          else pure (result, args1)) = of ((c.finishAll ps next args1).map (fun r => (result ++ r.1, r.2))) := by
        by_cases hne : next = []
        · subst hne; simp [Cmdline.finishAll, Except.map]
        · have := finishFirst_eq c ps [] next hne args1
          rw [if_pos hne]
          have h2 := congrArg (fun r : Raw (List Opt × List Str) => r >>= fun x => Except.ok (result ++ x.1, x.2)) this
          simp only [List.nil_append, List.length_nil, bind_assoc] at h2
          refine Eq.trans (Eq.trans ?_ h2) ?_
          · rfl
          · cases c.finishAll ps next args1 with
            | error f => cases f <;> first | rfl | (rename_i u; cases u <;> rfl)
            | ok r => rfl
      rw [hfin]
      cases c.finishAll ps next args1 with
      | error f => cases f <;> first | rfl | (rename_i u; cases u <;> rfl)
      | ok r2 =>
        obtain ⟨next', args2⟩ := r2
        simp only [Except.map, of_ok]
        by_cases hl : args2.length ≠ args.length
        · rw [if_pos hl, if_pos hl]; rfl
        · rw [if_neg hl, if_neg hl]
          have h2 : args2 ≠ [] := by
            intro h; subst h; apply ha; apply List.eq_nil_of_length_eq_zero
            exact (Classical.not_not.1 hl).symm
          rw [ih (i + 1) args2 (result ++ next') h2 (by omega)]
          cases c.tryParsers ps (ps.drop (i + 1)) args2 with
          | error f => rfl
          | ok r => simp [Except.map]

theorem loop_eq (c : Cmdline) (fuel : Nat) (args : List Str) (result : List Opt) :
    loop c (c.parsers.map (fun p args => of (p args))) fuel args result =
      of ((c.loop fuel args).map (fun r => result ++ r)) := by
  induction fuel generalizing args result with
  | zero =>
    cases args with
    | nil => simp [loop, Cmdline.loop, Except.map]
    | cons a as => simp [loop, Cmdline.loop, Except.map, of]
  | succ fuel ih =>
    cases args with
    | nil => simp [loop, Cmdline.loop, Except.map]
    | cons a as =>
      rw [loop, if_neg (by simp), Cmdline.loop]
      have h := tryFrom_eq c c.parsers 0 (a :: as) result (by simp)
      rw [List.drop_zero] at h
      have h2 := congrArg (fun r : Raw (List Opt × List Str) => r >>= fun x =>
        loop c (c.parsers.map (fun p args => of (p args))) fuel x.2 x.1) h
      simp only [bind_assoc] at h2
      refine Eq.trans (Eq.trans ?_ h2) ?_
      · cases tryFrom c (c.parsers.map (fun p args => of (p args))) 0 (a :: as) result with
        | error e => rfl
        | ok r =>
          obtain ⟨ok, result', args'⟩ := r
          simp only [bind_ok]
          cases ok with
          | true => rfl
          | false =>
            simp only [Bool.false_eq_true, if_false, bind_assoc]
            rfl
      · rw [Cmdline.step]
        cases c.tryParsers c.parsers c.parsers (a :: as) with
        | error f => cases f <;> first | rfl | (rename_i u; cases u <;> rfl)
        | ok r =>
          simp only [Except.map, of_ok, bind_ok, ih]
          cases c.loop fuel r.2 with
          | error f => rfl
          | ok more => simp

/-- How the `int` counter `can_take_more` and the list model's limit belong together. -/
def Takes (lim : Option Nat) (n : Int) : Prop :=
  match lim with
  | some k => n = k
  | none => n < 0

theorem takes_toInt {n : Nat} (h : n ≤ uintMax) :
    Takes (if n < 2147483648 then some n else none) (toInt n) := by
  unfold Takes toInt
  have : uintMax = 4294967295 := rfl
  split <;> rename_i h1 <;> split at h1 <;> first | cases h1 | skip
  · rename_i h2; rw [if_pos h2]
  · rename_i h2; rw [if_neg h2]; omega

theorem absorbFrom_eq (done rest : List Opt) (lim : Option Nat) (n : Int) (hn : Takes lim n) (o : Opt) :
    absorbFrom (done ++ rest) n done.length o = of ((Cmdline.absorb lim o rest).map (fun r => (r.1, done.length + r.2))) := by
  induction rest generalizing done lim n o with
  | nil => rw [absorbFrom, if_neg (by simp)]; rfl
  | cons p ps ih =>
    rw [absorbFrom, Cmdline.absorb]
    by_cases hl : lim = some 0
    · subst hl
      have : n = 0 := hn
      rw [if_neg (by simp [this]), if_pos rfl]; rfl
    · have hn0 : n ≠ 0 := by
        intro h0
        subst h0
        cases lim with
        | none => simp [Takes] at hn
        | some k => simp only [Takes] at hn; exact hl (by congr 1; omega)
      rw [if_pos ⟨hn0, by simp⟩, if_neg hl, get_lt (by simp)]
      simp only [List.getElem_append_right (Nat.le_refl _), Nat.sub_self, List.getElem_cons_zero]
      by_cases h1 : p.stringKey ≠ []
      · rw [if_pos h1, if_pos h1]; rfl
      · rw [if_neg h1, if_neg h1]
        by_cases h2 : p.positionKey = intMax
        · rw [if_pos h2, if_pos h2]; rfl
        · rw [if_neg h2, if_neg h2]
          have hv : ∀ {α : Type} (v : List α), (∃ x, v = [x]) ∨ v.length ≠ 1 := by
            intro α v
            match v with
            | [] => right; simp
            | [x] => left; exact ⟨x, rfl⟩
            | _ :: _ :: _ => right; simp
          rcases hv p.value with ⟨v, hv1⟩ | hv1
          · rw [if_neg (by simp [hv1]), hv1]
            simp only [get_zero]
            rcases hv p.originalTokens with ⟨t, ht1⟩ | ht1
            · rw [if_neg (by simp [ht1]), ht1]
              simp only [get_zero]
              have hn' : Takes (lim.map (· - 1)) (n - 1) := by
                cases lim with
                | none => simp only [Takes, Option.map_none] at hn ⊢; omega
                | some k =>
                  simp only [Takes, Option.map_some] at hn ⊢
                  have : k ≠ 0 := fun h => hl (by rw [h])
                  omega
              have := ih (done ++ [p]) (lim.map (· - 1)) (n - 1) hn'
                { o with value := o.value ++ [v], originalTokens := o.originalTokens ++ [t] }
              simp only [List.append_assoc, List.singleton_append, List.length_append, List.length_singleton] at this
              rw [this]
              cases Cmdline.absorb (lim.map (· - 1))
                { o with value := o.value ++ [v], originalTokens := o.originalTokens ++ [t] } ps with
              | error f => rfl
              | ok r => simp [Except.map]; omega
            · rw [if_pos ht1]
              cases ho : p.originalTokens with
              | nil => rfl
              | cons a as =>
                cases as with
                | nil => rw [ho] at ht1; exact absurd rfl ht1
                | cons => rfl
          · rw [if_pos hv1]
            cases ho : p.value with
            | nil => rfl
            | cons a as =>
              cases as with
              | nil => rw [ho] at hv1; exact absurd rfl hv1
              | cons => rfl

theorem regroup_skip (c : Cmdline) (k : Nat) (rest : List Opt) : c.regroup k rest = c.regroup 0 (rest.drop k) := by
  induction rest generalizing k with
  | nil => cases k <;> simp [Cmdline.regroup]
  | cons o os ih =>
    cases k with
    | zero => rfl
    | succ k => rw [Cmdline.regroup, ih, List.drop_succ_cons]

theorem of_err_bind {α β : Type} (f : Fail) (g : α → Raw β) : (of (.error f : Except Fail α) >>= g) = of (.error f : Except Fail β) :=
  of_err_map g rfl

theorem lookup_mem {c : Cmdline} {name : Str} {d : OptionDesc} (h : c.lookup name = .ok (some d)) : d ∈ c.desc :=
  (Cmdline.lookup_denotes.1 h).mem

theorem secondPass_eq (c : Cmdline) (hm : ∀ d ∈ c.desc, d.semantic.maxTokens ≤ uintMax) (result : List Opt) (fuel i : Nat)
    (r2 : List Opt) (hf : result.length - i ≤ fuel) :
    secondPass c result fuel i r2 = of ((c.regroup 0 (result.drop i)).map (fun r => r2 ++ r)) := by
  induction fuel generalizing i r2 with
  | zero =>
    rw [secondPass, if_neg (by omega), List.drop_eq_nil_of_le (by omega)]
    simp [Cmdline.regroup, Except.map]
  | succ fuel ih =>
    rw [secondPass]
    by_cases hi : i < result.length
    · rw [if_pos hi, List.drop_eq_getElem_cons hi]
      have key : secondStep c result i >>= (fun r => secondPass c result fuel r.2 (r2 ++ [r.1])) =
          of ((c.regroup 0 (result[i] :: result.drop (i + 1))).map (fun r => r2 ++ r)) := by
        have hcont : ∀ (o : Opt) (k : Nat), secondPass c result fuel (i + 1 + k) (r2 ++ [o]) =
            of ((match c.regroup k (result.drop (i + 1)) with
              | .error f => (Except.error f : Except Fail (List Opt))
              | .ok os => .ok (o :: os)).map (fun r => r2 ++ r)) := by
          intro o k
          rw [ih _ _ (by omega), regroup_skip c k, List.drop_drop]
          cases c.regroup 0 (result.drop (i + 1 + k)) with
          | error f => rfl
          | ok os => simp [Except.map]
        unfold secondStep Cmdline.regroup
        rw [get_lt hi]
        simp only [bind_ok]
        generalize result[i] = o
        by_cases hk : o.stringKey = []
        · rw [if_pos hk, if_pos hk]
          exact hcont o 0
        · rw [if_neg hk, if_neg hk]
          cases hl : c.lookup o.stringKey with
          | error f =>
            cases f with
            | opt e =>
              cases o.originalTokens with
              | nil => rfl
              | cons t ts => rfl
            | ub u => cases u <;> rfl
            | _ => rfl
          | ok d =>
            cases d with
            | none => exact hcont o 0
            | some d =>
              dsimp only
              by_cases hc : d.semantic.minTokens < d.semantic.maxTokens ∧ o.value.length < d.semantic.maxTokens
              · rw [if_pos hc, if_pos hc, sub_le (by omega)]
                simp only [bind_ok]
                have hd := hm d (lookup_mem hl)
                have ha := absorbFrom_eq (result.take (i + 1)) (result.drop (i + 1))
                  (Cmdline.takeLimit d.semantic.maxTokens o.value.length)
                  (toInt (d.semantic.maxTokens - o.value.length)) (takes_toInt (by omega)) o
                rw [List.take_append_drop, List.length_take, Nat.min_eq_left (by omega)] at ha
                rw [ha]
                cases Cmdline.absorb (Cmdline.takeLimit d.semantic.maxTokens o.value.length) o (result.drop (i + 1)) with
                | error f => cases f <;> first | rfl | (rename_i u; cases u <;> rfl)
                | ok r =>
                  simp only [Except.map, of_ok, bind_ok]
                  rw [sub_le (by omega)]
                  simp only [bind_ok, pure_ok]
                  rw [show i + 1 + r.2 - 1 + 1 = i + 1 + r.2 by omega]
                  exact hcont r.1 r.2
              · rw [if_neg hc, if_neg hc]
                exact hcont o 0
      exact key
    · rw [if_neg hi, List.drop_eq_nil_of_le (by omega)]
      simp [Cmdline.regroup, Except.map]

theorem positionsFrom_eq (done rest : List Opt) (key : Int) :
    positionsFrom (done ++ rest) done.length key = .ok (done ++ Cmdline.assignPositions key rest) := by
  induction rest generalizing done key with
  | nil => rw [positionsFrom, if_neg (by simp)]; rfl
  | cons o os ih =>
    rw [positionsFrom, if_pos (by simp), get_lt (by simp), Cmdline.assignPositions]
    simp only [List.getElem_append_right (Nat.le_refl _), Nat.sub_self, List.getElem_cons_zero]
    by_cases hk : o.stringKey = []
    · rw [if_pos hk, if_pos hk]
      have := ih (done ++ [{ o with positionKey := key }]) (key + 1)
      simpa using this
    · rw [if_neg hk, if_neg hk]
      have := ih (done ++ [o]) key
      simpa using this

theorem nameForPosition_eq (p : Positional) (n : Nat) : nameForPosition p n = of (p.nameForPosition n) := by
  unfold nameForPosition Positional.nameForPosition Positional.full Positional.maxTotalCount
  by_cases ht : p.trailing = []
  · rw [if_pos ht]
    by_cases hn : n < p.names.length
    · simp [hn, get_lt hn, Nat.not_le.2 hn]
    · simp [hn, Nat.le_of_not_lt hn, ht, of, access]
  · rw [if_neg ht]
    by_cases hn : n < p.names.length
    · simp [hn, get_lt hn]
    · simp [hn, ht]

theorem namesFrom_eq (p : Positional) (done rest : List Opt) (position : Nat) :
    namesFrom p (done ++ rest) done.length position =
      of ((Cmdline.namePositional p position rest).map (fun r => done ++ r)) := by
  induction rest generalizing done position with
  | nil => rw [namesFrom, if_neg (by simp)]; rfl
  | cons o os ih =>
    rw [namesFrom, if_pos (by simp), get_lt (by simp), Cmdline.namePositional]
    simp only [List.getElem_append_right (Nat.le_refl _), Nat.sub_self, List.getElem_cons_zero]
    by_cases hk : o.positionKey ≠ -1
    · rw [if_pos hk, if_pos hk]
      split
      · rfl
      · rw [nameForPosition_eq]
        cases p.nameForPosition position with
        | error f => cases f <;> first | rfl | (rename_i u; cases u <;> rfl)
        | ok n =>
          have := ih (done ++ [{ o with stringKey := n }]) (position + 1)
          simp only [List.append_assoc, List.singleton_append, List.length_append, List.length_singleton] at this
          simp only [of_ok, List.set_append_right _ _ (Nat.le_refl _), Nat.sub_self, List.set_cons_zero, this]
          cases Cmdline.namePositional p (position + 1) os with
          | error f => rfl
          | ok r => rfl
    · rw [if_neg hk, if_neg hk]
      have := ih (done ++ [o]) position
      simp only [List.append_assoc, List.singleton_append, List.length_append, List.length_singleton] at this
      rw [this]
      cases Cmdline.namePositional p position os with
      | error f => rfl
      | ok r => rfl

theorem caseFrom_eq (c : Cmdline) (done rest : List Opt) :
    caseFrom c (done ++ rest) done.length = .ok (done ++ rest.map c.setCase) := by
  induction rest generalizing done with
  | nil => rw [caseFrom, if_neg (by simp)]; simp
  | cons o os ih =>
    have key : ∀ o', caseFrom c ((done ++ o :: os).set done.length o') (done.length + 1) = .ok (done ++ o' :: os.map c.setCase) := by
      intro o'
      have := ih (done ++ [o'])
      simpa using this
    rw [caseFrom, if_pos (by simp), get_lt (by simp)]
    simp only [List.getElem_append_right (Nat.le_refl _), Nat.sub_self, List.getElem_cons_zero, List.map_cons, key,
      Cmdline.setCase]
    by_cases h2 : o.stringKey.length > 2
    · rw [if_pos h2, if_pos (Or.inl h2)]
    · rw [if_neg h2]
      by_cases h1 : o.stringKey.length > 1
      · rw [if_pos h1, get_lt (show 0 < o.stringKey.length by omega)]
        dsimp only
        by_cases hc : o.stringKey[0]'(by omega) ≠ '-'
        · rw [if_pos hc, if_pos (Or.inr ⟨h1, by rw [List.getElem?_eq_getElem (by omega)]; simpa using hc⟩)]
        · rw [if_neg hc, if_neg]
          rintro (h | ⟨_, h⟩)
          · exact h2 h
          · rw [List.getElem?_eq_getElem (by omega)] at h
            exact hc (by simpa using h)
      · rw [if_neg h1, if_neg (by rintro (h | h) <;> omega)]

theorem run_eq (c : Cmdline) (hm : ∀ d ∈ c.desc, d.semantic.maxTokens ≤ uintMax) (args : List Str) :
    run c args = of (c.run args) := by
  unfold run Cmdline.run Cmdline.runFuel
  rw [parsers_eq, loop_eq]
  cases c.loop (args.length + 1) args with
  | error f => exact of_err_map _ rfl
  | ok result =>
    simp only [Except.map, of_ok, bind_ok, List.nil_append, Cmdline.finalize]
    rw [secondPass_eq c hm result result.length 0 [] (by omega), List.drop_zero]
    cases c.regroup 0 result with
    | error f => exact of_err_map _ rfl
    | ok r2 =>
      simp only [Except.map, of_ok, bind_ok, List.nil_append]
      have hp := positionsFrom_eq [] r2 0
      simp only [List.nil_append, List.length_nil] at hp
      rw [hp]
      simp only [bind_ok, Cmdline.applyPositional]
      cases c.positional with
      | none =>
        simp only [pure_ok, bind_ok]
        exact caseFrom_eq c [] _
      | some p =>
        have hn := namesFrom_eq p [] (Cmdline.assignPositions 0 r2) 0
        simp only [List.nil_append, List.length_nil] at hn
        dsimp only
        rw [hn]
        cases Cmdline.namePositional p 0 (Cmdline.assignPositions 0 r2) with
        | error f => exact of_err_map _ rfl
        | ok r4 => exact caseFrom_eq c [] r4

end PO.Raw
