import Verif.Props.LeaveOut
import Verif.Props.Compose
import Verif.Props.LineCut
/-
C164: leaving arguments out of a command line.
-/
namespace PO
open Spec

/-- On a command line without positional options declared, the options in the middle are deleted. They are options by name that occur nowhere else on the
command line, and neither they nor what stands in front of them end in an option that could take more values. What could be stored can still be stored;
the other options have the same values, and the deleted ones are as if nothing had been said about them. -/
theorem C164_arguments (c : Cmdline) (hs : c.styleParser = none) (hp : c.positional = none)
    (hne : ∀ d ∈ c.desc, ∀ name, name ≠ [] → reportedKey d name ≠ []) (x y z : List Str) (hlen : (x ++ (y ++ z)).length < 2147483648)
    (hd : ['-', '-'] ∉ x ++ y) (rx ry rz : List Opt) (hx : c.run x = .ok rx) (hy : c.run y = .ok ry) (hz : c.run z = .ok rz)
    (hfull : ∀ o, rx.getLast? = some o ∨ ry.getLast? = some o → o.positionKey = -1 → ∀ d, Denotes c o.stringKey d →
      ¬ (d.semantic.minTokens < d.semantic.maxTokens ∧ o.value.length < d.semantic.maxTokens))
    (hown : ∀ o ∈ ry, o.positionKey = -1 ∧ ∀ o' ∈ rx ++ rz, o'.stringKey ≠ o.stringKey)
    (p : Parsed) (h : c.parse (x ++ (y ++ z)) = .ok p) (xm m : VarMap) (utf8 : Bool) (hm : store p xm utf8 = (m, none)) :
    ∃ p' m', c.parse (x ++ z) = .ok p' ∧ store p' xm utf8 = (m', none) ∧
      (∀ name, (∀ o ∈ ry, o.stringKey ≠ name) → m'.map.get? name = m.map.get? name) ∧
      (∀ o ∈ ry, m'.map.get? o.stringKey = (match xm.map.get? o.stringKey with
        | some v => some v
        | none => (firstDefault p.desc o.stringKey).map fun q => { v := q.2, defaulted := true, semantic := some q.1 })) := by
  have l1 : (y ++ z).length < 2147483648 := by rw [List.length_append] at hlen; omega
  have l2 : (x ++ z).length < 2147483648 := by simp only [List.length_append] at hlen ⊢; omega
  have dx : ['-', '-'] ∉ x := fun e => hd (List.mem_append_left _ e)
  have dy : ['-', '-'] ∉ y := fun e => hd (List.mem_append_right _ e)
  have nopos : ry.filter (·.positionKey ≠ -1) = [] := List.filter_eq_nil_iff.2 fun o ho => by simp [(hown o ho).1]
  have hyz := C76_compose c hs hp hne y z l1 dy ry rz hy hz fun o _ ho _ hk _ => hfull o (.inr ho) hk
  have hxz := C76_compose c hs hp hne x z l2 dx rx rz hx hz fun o _ ho _ hk _ => hfull o (.inl ho) hk
  have hxyz := C76_compose c hs hp hne x (y ++ z) hlen dx rx _ hx hyz fun o _ ho _ hk _ => hfull o (.inl ho) hk
  generalize (rx.filter (·.positionKey ≠ -1)).length = k at hxz hxyz
  have e : (ry ++ rz.map fun o => if o.positionKey = -1 then o else
      { o with positionKey := o.positionKey + ((ry.filter (·.positionKey ≠ -1)).length : Nat) }) = ry ++ rz := by
    rw [nopos]
    simp
  rw [e, List.map_append] at hxyz
  have e2 : (ry.map fun o => if o.positionKey = -1 then o else { o with positionKey := o.positionKey + (k : Nat) }) = ry := by
    conv_rhs => rw [← List.map_id ry]
    exact List.map_congr_left fun o ho => if_pos (hown o ho).1
  rw [e2] at hxyz
  let keep : Str → Bool := fun n => !ry.any fun o => o.stringKey == n
  have hk : ∀ {n}, (∀ o ∈ ry, o.stringKey ≠ n) → keep n = true := by
    intro n h
    simpa [keep] using h
  have hk' : ∀ {o}, o ∈ ry → keep o.stringKey = false := by
    intro o ho
    simp only [keep, Bool.not_eq_false', List.any_eq_true]
    exact ⟨o, ho, by simp⟩
  rw [Cmdline.parse, hxyz] at h
  cases h
  obtain ⟨m', h', a1, a2, -⟩ := C164_stored _ keep xm m utf8 hm
  have ef : ∀ l : List Opt, (∀ o ∈ l, ∃ o' ∈ rx ++ rz, o'.stringKey = o.stringKey) → l.filter (fun o => keep o.stringKey) = l := by
    intro l hl
    refine List.filter_eq_self.2 fun o ho => hk fun b hb => ?_
    obtain ⟨o', h1, h2⟩ := hl o ho
    exact fun e => (hown b hb).2 o' h1 (h2.trans e.symm)
  have ef' : ry.filter (fun o => keep o.stringKey) = [] := List.filter_eq_nil_iff.2 fun o ho => by simp [hk' ho]
  dsimp only at h'
  rw [List.filter_append, List.filter_append, ef', List.nil_append, ef rx fun o ho => ⟨o, List.mem_append_left _ ho, rfl⟩, ef _ ?_] at h'
  · refine ⟨_, m', by rw [Cmdline.parse, hxz], h', fun name hn => (a1 name (hk hn)).1, fun o ho => (a2 _ (hk' ho)).1⟩
  · intro o ho
    obtain ⟨o', h1, rfl⟩ := List.mem_map.1 ho
    refine ⟨o', List.mem_append_right _ h1, ?_⟩
    split <;> rfl

/-- `--level 1` is deleted between an argument and a switch. -/
example : ∃ p' m', Ex.cutLine.parse [str% "file", str% "--verbose"] = .ok p' ∧ store p' {} = (m', none) ∧ m'.map.get? (str% "level") = none := by
  let r (a : List Str) : List Opt := (Ex.cutLine.run a).toOption.getD []
  obtain ⟨p', m', h1, h2, -, h4⟩ := C164_arguments Ex.cutLine rfl rfl (keys_nonempty _ (by decide)) [str% "file"] [str% "--level", str% "1"] [str% "--verbose"]
    (by decide) (by decide) (r [str% "file"]) (r [str% "--level", str% "1"]) (r [str% "--verbose"]) rfl rfl rfl
    (fun o _ _ d hd h => absurd (Ex.cutLine_fixed d (Cmdline.denotes_mem hd)) (by omega)) (by decide) _ rfl {} _ false rfl
  refine ⟨p', m', h1, h2, ?_⟩
  have := h4 { stringKey := str% "level", value := [str% "1"], originalTokens := [str% "--level", str% "1"] } (by decide)
  exact this.trans (by decide)

end PO
