import Verif.Spec.Unique
import Verif.Props.Matrix
import Verif.Props.Defs
import Verif.Proofs.EvalIdem
import Std.Data.String.ToInt
import Mathlib.Tactic.Ring
import Mathlib.Tactic.Positivity

/-! Property C50: fresh names. -/

namespace Expreduce
open Ex

/-! ## Decimal numbers -/

theorem numbered_inj {stem : String} {a b : Int} (h : numbered stem a = numbered stem b) : a = b := by
  unfold numbered at h
  have := congrArg String.toList h
  simp only [String.toList_append, List.append_cancel_left_eq] at this
  exact Int.repr_injective (String.toList_inj.1 this)

theorem repr_nonneg {a : Int} (h : 0 ≤ a) : ∀ c ∈ (Int.repr a).toList, c.isDigit = true := by
  obtain ⟨n, rfl⟩ := Int.eq_ofNat_of_zero_le h
  intro c hc
  have : (Int.repr (n : Int)).toList = Nat.toDigits 10 n := by
    show (Nat.repr n).toList = _
    exact Nat.toList_repr
  rw [this] at hc
  exact Nat.isDigit_of_mem_toDigits (by decide) (by decide) hc

/-- Two stems ending in a non-digit and two numbers: the stems and the numbers can be read off the name. -/
theorem numbered_open {s t : String} {a b : Int} (hs : EndsOpen s) (ht : EndsOpen t) (ha : 0 ≤ a) (hb : 0 ≤ b) (h : numbered s a = numbered t b) : a = b := by
  obtain ⟨l, c, hl, hc⟩ := hs
  obtain ⟨l', c', hl', hc'⟩ := ht
  have h1 := congrArg String.toList h
  simp only [numbered, String.toList_append, hl, hl', List.append_assoc, List.cons_append, List.nil_append] at h1
  have key : ∀ (x : List Char) (y : Char) (u : List Char) (x' : List Char) (y' : Char) (u' : List Char), y.isDigit = false → y'.isDigit = false →
      (∀ z ∈ u, z.isDigit = true) → (∀ z ∈ u', z.isDigit = true) → x ++ y :: u = x' ++ y' :: u' → u = u' := by
    intro x y u x' y' u' hy hy' hu hu' e
    have e' := congrArg List.reverse e
    simp only [List.reverse_append, List.reverse_cons, List.append_assoc, List.cons_append, List.nil_append] at e'
    have t1 : (u.reverse ++ y :: x.reverse).takeWhile Char.isDigit = u.reverse := by
      rw [List.takeWhile_append_of_pos (by intro z hz; exact hu z (List.mem_reverse.1 hz)), List.takeWhile_cons, hy]; simp
    have t2 : (u'.reverse ++ y' :: x'.reverse).takeWhile Char.isDigit = u'.reverse := by
      rw [List.takeWhile_append_of_pos (by intro z hz; exact hu' z (List.mem_reverse.1 hz)), List.takeWhile_cons, hy']; simp
    rw [e', t2] at t1
    exact List.reverse_injective t1.symm
  have := key _ _ _ _ _ _ hc hc' (repr_nonneg ha) (repr_nonneg hb) h1
  exact Int.repr_injective (String.toList_inj.1 this)

/-! ## One production -/

theorem wrap64_room {n : Int} (h0 : 0 ≤ n) (h1 : n < 2 ^ 63) : wrap64 n = n := by
  unfold wrap64
  rw [Int.emod_eq_of_lt (by omega) (by omega)]
  omega

theorem getSymDef_number {st : DState} {k : Int} (h : NextNumber st k) : getSymDef st modNumName = some (.int k) := by
  obtain ⟨d, s, rest, h1, h2⟩ := h
  unfold getSymDef modNumName
  rw [h1]
  simp only [h2]
  rw [List.find?_cons_of_pos (by rfl)]
  rfl

theorem define_number (strLen : Ex → Nat) {st : DState} {k : Int} (hf : st.frozen = false) (h : NextNumber st k) (m : Int) :
    ∃ st', define strLen st (.sym modNumName) (.int m) = some st' ∧ st'.frozen = false ∧ NextNumber st' m ∧
      ∀ x, x ≠ "System`$ModuleNumber" → st'.defs x = st.defs x := by
  obtain ⟨d, s, rest, h1, h2⟩ := h
  have hm : ∀ j : Int, maskOf (.int j) = some (S "ExpreduceNonConditional") := fun _ => rfl
  have ht : targetOf (.sym modNumName) = .rule "System`$ModuleNumber" := by simp [targetOf, modNumName]
  have ho : defineRule strLen "System`$ModuleNumber" (held (.sym modNumName)) (.int m) d.downvalues =
      some ({ lhs := held (.sym modNumName), rhs := .int m, spec := s } :: rest) := by
    unfold defineRule
    rw [h2]
    have : overwrite (held (.sym modNumName)) (.int m) ({ lhs := held (.sym "System`$ModuleNumber"), rhs := .int k, spec := s } :: rest) =
        some (some ({ lhs := held (.sym modNumName), rhs := .int m, spec := s } :: rest)) := by
      unfold overwrite
      have r1 : isSameQ (held (.sym "System`$ModuleNumber")) (held (.sym modNumName)) = true := isSameQ_refl' _
      have r2 : isSameQ (S "ExpreduceNonConditional") (S "ExpreduceNonConditional") = true := isSameQ_refl' _
      simp only [r1, hm, r2, if_true]
      rfl
    rw [this]
  refine ⟨{ st with defs := st.defs.set modNumName { d with downvalues := { lhs := held (.sym modNumName), rhs := .int m, spec := s } :: rest } }, ?_, hf, ?_, ?_⟩
  · unfold define
    simp only [hf, ht, h1, ho]
    rfl
  · exact ⟨{ d with downvalues := { lhs := held (.sym modNumName), rhs := .int m, spec := s } :: rest }, s, rest, by simp [Table.set, modNumName], rfl⟩
  · intro x hx
    simp [Table.set, modNumName, hx]

theorem snagLoop_least (t : Table) (stem : String) : ∀ (i : Nat) (k : Int), 0 ≤ k → k + i < 2 ^ 63 → t (numbered stem (k + i)) = none →
    (∀ j : Nat, j < i → t (numbered stem (k + j)) ≠ none) → snagLoop t stem (i + 1) k = some (k + i)
  | 0, k, _, _, hn, _ => by
    have : t (numbered stem k) = none := by simpa using hn
    simp [snagLoop, this]
  | i + 1, k, h0, hlt, hn, hall => by
    have h1 : t (numbered stem k) ≠ none := by simpa using hall 0 (by omega)
    have h2 : (t (numbered stem k)).isSome = true := by rw [Option.isSome_iff_ne_none]; exact h1
    have ih := snagLoop_least t stem i (k + 1) (by omega) (by push_cast at hlt; omega)
      (by have : k + 1 + (i : Int) = k + ((i + 1 : Nat) : Int) := by push_cast; omega
          rw [this]; exact hn)
      (fun j hj => by
        have : k + 1 + (j : Int) = k + ((j + 1 : Nat) : Int) := by push_cast; omega
        rw [this]; exact hall (j + 1) (by omega))
    rw [snagLoop, if_pos h2, wrap64_room (by omega) (by push_cast at hlt; omega), ih]
    congr 1
    push_cast; omega

theorem exists_free {st : DState} {k : Int} (stem : String) {names : List String} (hf : ∀ x, st.defs x ≠ none → x ∈ names) :
    ∃ i : Nat, i ≤ names.length ∧ st.defs (numbered stem (k + i)) = none ∧ ∀ j : Nat, j < i → st.defs (numbered stem (k + j)) ≠ none := by
  have hex : ∃ i : Nat, i ≤ names.length ∧ st.defs (numbered stem (k + i)) = none := by
    by_contra hcon
    push Not at hcon
    have hsub : ((List.range (names.length + 1)).map (fun i : Nat => numbered stem (k + i))).Subperm names := by
      apply List.subperm_of_subset
      · refine List.Nodup.map ?_ List.nodup_range
        intro a b hab
        have := numbered_inj hab
        omega
      · intro x hx
        obtain ⟨i, hi, rfl⟩ := List.mem_map.1 hx
        exact hf _ (hcon i (by have := List.mem_range.1 hi; omega))
    have := hsub.length_le
    simp at this
  classical
  refine ⟨Nat.find hex, (Nat.find_spec hex).1, (Nat.find_spec hex).2, ?_⟩
  intro j hj hn
  exact Nat.find_min hex hj ⟨by have := (Nat.find_spec hex).1; omega, hn⟩

/-- C50: in every state that is not frozen and has finitely many names, a fresh name is found: the stem followed by the least number from `$ModuleNumber` on
that makes it unknown. Afterwards `$ModuleNumber` is one more than that number, and no other definition has changed. -/
theorem C50_unique (strLen : Ex → Nat) (st : DState) (k : Int) (h : Roomy st k) (stem : String) :
    ∃ n st' m, snagUnique strLen n st stem = .ok (st', some (stem ++ toString m)) ∧ k ≤ m ∧ st.defs (stem ++ toString m) = none ∧
      (∀ j, k ≤ j → j < m → st.defs (stem ++ toString j) ≠ none) ∧ st'.frozen = false ∧ NextNumber st' (m + 1) ∧
      ∀ x, x ≠ "System`$ModuleNumber" → st'.defs x = st.defs x := by
  obtain ⟨names, hf, hlt⟩ := h.finite
  obtain ⟨i, hi, hn, hall⟩ := exists_free (k := k) stem hf
  have h0 := h.nonneg
  obtain ⟨st', hd, hfr, hnum, hsame⟩ := define_number strLen h.thawed h.number (k + i + 1)
  refine ⟨i + 1, st', k + i, ?_, by omega, hn, ?_, hfr, hnum, hsame⟩
  · unfold snagUnique
    rw [getSymDef_number h.number]
    simp only
    rw [wrap64_room h0 (by omega), snagLoop_least _ _ i k h0 (by omega) hn hall]
    simp only [snagFinish]
    rw [wrap64_room (by omega) (by omega), hd]
    rfl
  · intro j h1 h2
    obtain ⟨p, hp⟩ := Int.eq_ofNat_of_zero_le (show 0 ≤ j - k by omega)
    have := hall p (by omega)
    have e : k + (p : Int) = j := by omega
    rw [e] at this
    exact this

theorem snagLoop_det (t : Table) (stem : String) : ∀ (n m : Nat) (k a b : Int), snagLoop t stem n k = some a → snagLoop t stem m k = some b → a = b
  | 0, _, _, _, _, h, _ => by simp [snagLoop] at h
  | _ + 1, 0, _, _, _, _, h => by simp [snagLoop] at h
  | n + 1, m + 1, k, a, b, h1, h2 => by
    unfold snagLoop at h1 h2
    by_cases hd : (t (numbered stem k)).isSome = true
    · rw [if_pos hd] at h1 h2; exact snagLoop_det t stem n m _ a b h1 h2
    · rw [if_neg hd] at h1 h2
      exact (Option.some.inj h1).symm.trans (Option.some.inj h2)

theorem snagUnique_det {strLen : Ex → Nat} {st : DState} {stem : String} {n m : Nat} {r q : DState × Option String}
    (h1 : snagUnique strLen n st stem = .ok r) (h2 : snagUnique strLen m st stem = .ok q) : r = q := by
  unfold snagUnique at h1 h2
  split at h1
  · next k hk =>
    rw [hk] at h2
    simp only at h2
    cases ha : snagLoop st.defs stem n (wrap64 k) with
    | none => simp [ha, snagFinish] at h1
    | some a =>
      cases hb : snagLoop st.defs stem m (wrap64 k) with
      | none => simp [hb, snagFinish] at h2
      | some b =>
        rw [ha] at h1; rw [hb] at h2
        rw [snagLoop_det _ _ _ _ _ _ _ ha hb, h2] at h1
        exact (Res.ok.inj h1).symm
  · next hk =>
    split at h2
    · next k hk' => exact absurd hk' (hk k)
    · exact (Res.ok.inj h1).symm.trans (Res.ok.inj h2)

/-- What a production in a roomy state has done. -/
theorem snag_inv {strLen : Ex → Nat} {st st' : DState} {stem u : String} {n : Nat} {k : Int} (h : Roomy st k)
    (hs : snagUnique strLen n st stem = .ok (st', some u)) :
    ∃ m, u = numbered stem m ∧ k ≤ m ∧ st.defs u = none ∧ st'.frozen = false ∧ NextNumber st' (m + 1) ∧
      ∀ x, x ≠ "System`$ModuleNumber" → st'.defs x = st.defs x := by
  obtain ⟨n', st1, m, h1, h2, h3, -, h5, h6, h7⟩ := C50_unique strLen st k h stem
  have := snagUnique_det hs h1
  simp only [Prod.mk.injEq, Option.some.injEq] at this
  obtain ⟨rfl, rfl⟩ := this
  exact ⟨m, rfl, h2, h3, h5, h6, h7⟩

theorem NextNumber.inj {st : DState} {a b : Int} (h1 : NextNumber st a) (h2 : NextNumber st b) : a = b := by
  have e := (getSymDef_number h1).symm.trans (getSymDef_number h2)
  simpa using e

theorem produced_numbers {strLen : Ex → Nat} {st : DState} {k : Int} {names : List (String × String)} (h : Produced strLen st k names) :
    Roomy st k ∧ (∀ p ∈ names, ∃ m, p.2 = numbered p.1 m ∧ 0 ≤ m ∧ m < k) ∧
    names.Pairwise (fun p q => ∃ a b, p.2 = numbered p.1 a ∧ q.2 = numbered q.1 b ∧ 0 ≤ b ∧ b < a) := by
  induction h with
  | start hr => exact ⟨hr, by simp, .nil⟩
  | other _ hr hk ih =>
    refine ⟨hr, ?_, ih.2.2⟩
    intro p hp
    obtain ⟨m, h1, h2, h3⟩ := ih.2.1 p hp
    exact ⟨m, h1, h2, by omega⟩
  | make _ hs hr ih =>
    obtain ⟨m, hu, hm, -, -, hnum, -⟩ := snag_inv ih.1 hs
    have hk := hnum.inj hr.number
    have h0 := ih.1.nonneg
    refine ⟨hr, ?_, List.pairwise_cons.2 ⟨?_, ih.2.2⟩⟩
    · intro p hp
      rcases List.mem_cons.1 hp with rfl | hp
      · exact ⟨m, hu, by omega, by omega⟩
      · obtain ⟨m', h1, h2, h3⟩ := ih.2.1 p hp
        exact ⟨m', h1, h2, by omega⟩
    · intro q hq
      obtain ⟨m', h1, h2, h3⟩ := ih.2.1 q hq
      exact ⟨m, m', hu, h1, h2, by omega⟩

/-- C50 (partial: no stem ends in a digit). However productions of fresh names by any stems (all local variables of `Module`s, `Unique[]`, and `Unique["p"]` where `p`
does not end in a digit) and other actions that do not lower `$ModuleNumber` are interleaved, no name is produced twice. -/
theorem C50_distinct_partial (strLen : Ex → Nat) (st : DState) (k : Int) (names : List (String × String)) (h : Produced strLen st k names)
    (ho : ∀ p ∈ names, EndsOpen p.1) : (names.map Prod.snd).Nodup := by
  have := (produced_numbers h).2.2
  rw [List.Nodup, List.pairwise_map]
  refine this.imp_of_mem ?_
  rintro p q hp hq ⟨a, b, h1, h2, h3, h4⟩ e
  rw [h1, h2] at e
  have := numbered_open (ho p hp) (ho q hq) (by omega) h3 e
  omega

/-- C50: with any stems, no name is produced twice from the same stem. -/
theorem C50_distinct_same_stem (strLen : Ex → Nat) (st : DState) (k : Int) (names : List (String × String)) (h : Produced strLen st k names) :
    names.Pairwise (fun p q => p.1 = q.1 → p.2 ≠ q.2) := by
  refine (produced_numbers h).2.2.imp ?_
  rintro p q ⟨a, b, h1, h2, h3, h4⟩ e e'
  rw [h1, h2, e] at e'
  have := numbered_inj e'
  omega

/-- A state with nothing but `$ModuleNumber = k`. -/
def onlyNumber (k : Int) : DState := { defs := fun x => if x = "System`$ModuleNumber" then some { downvalues := [{ lhs := held (.sym "System`$ModuleNumber"), rhs := .int k }] } else none }

theorem onlyNumber_roomy {k : Int} (h0 : 0 ≤ k) (h1 : k < 2 ^ 62) : Roomy (onlyNumber k) k := by
  refine ⟨rfl, ⟨_, 0, [], rfl, rfl⟩, h0, ["System`$ModuleNumber"], ?_, ?_⟩
  · intro x hx
    by_cases h : x = "System`$ModuleNumber"
    · simp [h]
    · exact absurd (by simp [onlyNumber, h]) hx
  · simp only [List.length_cons, List.length_nil]; omega

theorem onlyNumber_make {k : Int} (h0 : 0 ≤ k) (h1 : k < 2 ^ 62) (stem : String) (hne : numbered stem k ≠ "System`$ModuleNumber") :
    ∃ n st', snagUnique len0 n (onlyNumber k) stem = .ok (st', some (numbered stem k)) ∧ Roomy st' (k + 1) := by
  obtain ⟨n, st', m, hs, hm, hfree, hleast, hfr, hnum, hsame⟩ := C50_unique len0 _ k (onlyNumber_roomy h0 h1) stem
  have hk : m = k := by
    by_contra hne'
    exact hleast k (le_refl _) (by omega) (by show (onlyNumber k).defs (numbered stem k) = none; simp [onlyNumber, hne])
  subst hk
  refine ⟨n, st', hs, hfr, hnum, by omega, ["System`$ModuleNumber"], ?_, by simp only [List.length_cons, List.length_nil]; omega⟩
  intro x hx
  by_cases h : x = "System`$ModuleNumber"
  · simp [h]
  · rw [hsame x h] at hx
    exact absurd (by simp [onlyNumber, h]) hx

/-- C50 fails for stems ending in digits: `Unique["a1"]` with `$ModuleNumber = 1` and later `Unique["a"]` with `$ModuleNumber = 11` give the same symbol `a11`: a name made by
`Unique` is not entered anywhere. -/
theorem C50_collision : ∃ st k, Produced len0 st k [("Global`a", "Global`a11"), ("Global`a1", "Global`a11")] := by
  obtain ⟨n, st, h1, h2⟩ := onlyNumber_make (k := 1) (by decide) (by decide) "Global`a1" (by decide)
  obtain ⟨n', st', h3, h4⟩ := onlyNumber_make (k := 11) (by decide) (by decide) "Global`a" (by decide)
  exact ⟨st', _, .make (.other (.make (.start (onlyNumber_roomy (by decide) (by decide))) h1 h2) (onlyNumber_roomy (k := 11) (by decide) (by decide)) (by decide)) h3 h4⟩

/-- C50 fails while definitions are frozen (during pre-matching, with the command line flag `freezestateduringprematch`): `$ModuleNumber` is not advanced, so the next production from the same stem gives the same
name again. -/
theorem C50_frozen_repeats (strLen : Ex → Nat) (st st' : DState) (n : Nat) (stem u : String) (hf : st.frozen = true)
    (h : snagUnique strLen n st stem = .ok (st', some u)) : st' = st ∧ snagUnique strLen n st' stem = .ok (st', some u) := by
  have e : st' = st := by
    unfold snagUnique at h
    split at h
    · next k _ =>
      cases hl : snagLoop st.defs stem n (wrap64 k) with
      | none => simp [hl, snagFinish] at h
      | some a =>
        rw [hl] at h
        simp only [snagFinish, C67_frozen strLen st _ _ hf, Res.ofOption, Res.bind, Res.ok.injEq, Prod.mk.injEq] at h
        exact h.1.symm
    · simp at h
  subst e
  exact ⟨rfl, h⟩

/-- Stems as used by `Module` and by `Unique[]`. -/
example : EndsOpen "Global`x$" ∧ EndsOpen "Global`$" :=
  ⟨⟨"Global`x".toList, '$', by decide, by decide⟩, ⟨"Global`".toList, '$', by decide, by decide⟩⟩

/-- C50: `Unique["p"]` and `Unique[]` return a symbol that was unknown before, in context ``Global` ``. -/
theorem C50_Unique (strLen : Ex → Nat) (st : DState) (k : Int) (h : Roomy st k) (hd : Ex) (p : String) :
    (∃ n st' m, uniqueFn strLen n st [hd, .str p] = .ok (st', .sym ("Global`" ++ p ++ toString m)) ∧ st.defs ("Global`" ++ p ++ toString m) = none ∧
      NextNumber st' (m + 1)) ∧
    ∃ n st' m, uniqueFn strLen n st [hd] = .ok (st', .sym ("Global`" ++ "$" ++ toString m)) ∧ st.defs ("Global`" ++ "$" ++ toString m) = none ∧
      NextNumber st' (m + 1) := by
  constructor
  · obtain ⟨n, st', m, h1, -, h3, -, -, h6, -⟩ := C50_unique strLen st k h ("Global`" ++ p)
    exact ⟨n, st', m, by simp only [uniqueFn, h1]; rfl, h3, h6⟩
  · obtain ⟨n, st', m, h1, -, h3, -, -, h6, -⟩ := C50_unique strLen st k h ("Global`" ++ "$")
    exact ⟨n, st', m, by simp only [uniqueFn, h1]; rfl, h3, h6⟩

/-! ## `Module` -/

theorem pm_set_get (pm : PM) (x y : String) (v : Ex) : PM.get (PM.set pm x v) y = if y = x then some v else PM.get pm y := by
  unfold PM.get PM.set
  by_cases h : y = x
  · simp [h]
  · have hb : (y == x) = false := by simpa using h
    rw [List.lookup_cons, hb, if_neg h]
    simp only
    induction pm with
    | nil => rfl
    | cons a l ih =>
      obtain ⟨k, u⟩ := a
      by_cases hk : k = x
      · subst hk
        simp only [List.filter_cons, bne_self_eq_false, Bool.false_eq_true, if_false, ih, List.lookup_cons, hb]
      · have : (k != x) = true := by simpa using hk
        simp only [List.filter_cons, this, if_true, List.lookup_cons, ih]

theorem defineLocals_pm {ev : Evaluator} : ∀ (us : List (Local × String)) (st st' : EState) (pm pm' : PM),
    defineLocals ev st us pm = .ok (st', pm') → ∀ x, pm'.get x = (localNames us x).orElse (fun _ => pm.get x)
  | [], st, st', pm, pm', h, x => by
    simp only [defineLocals, Res.ok.injEq, Prod.mk.injEq] at h
    rw [← h.2]; rfl
  | (l, u) :: us, st, st', pm, pm', h, x => by
    have step : ∀ st1, defineLocals ev st1 us (PM.set pm l.name (.sym u)) = .ok (st', pm') →
        pm'.get x = (localNames ((l, u) :: us) x).orElse (fun _ => pm.get x) := by
      intro st1 h1
      rw [defineLocals_pm us _ _ _ _ h1 x, pm_set_get, localNames]
      cases localNames us x with
      | some v => rfl
      | none => by_cases hx : x = l.name <;> simp [hx]
    unfold defineLocals at h
    split at h
    · exact step _ h
    · exact step _ h
    · replace h := Res.bind_ok h
      obtain ⟨r, -, h⟩ := h
      exact step _ h

theorem snagLoop_mono (t : Table) (stem : String) : ∀ (n m : Nat) (k a : Int), snagLoop t stem n k = some a → n ≤ m → snagLoop t stem m k = some a
  | 0, _, _, _, h, _ => by simp [snagLoop] at h
  | n + 1, 0, _, _, _, hle => by omega
  | n + 1, m + 1, k, a, h, hle => by
    unfold snagLoop at h ⊢
    by_cases hd : (t (numbered stem k)).isSome = true
    · rw [if_pos hd] at h ⊢; exact snagLoop_mono t stem n m _ a h (by omega)
    · rw [if_neg hd] at h ⊢; exact h

/-- One production with explicit bounds. -/
theorem snag_core (strLen : Ex → Nat) {st : DState} {k : Int} {names : List String} (ht : st.frozen = false) (hn : NextNumber st k) (h0 : 0 ≤ k)
    (hf : ∀ x, st.defs x ≠ none → x ∈ names) (hlt : k + names.length < 2 ^ 63 - 1) (stem : String) {n : Nat} (hfuel : names.length < n) :
    ∃ st' m, snagUnique strLen n st stem = .ok (st', some (numbered stem m)) ∧ k ≤ m ∧ m ≤ k + names.length ∧ st.defs (numbered stem m) = none ∧
      st'.frozen = false ∧ NextNumber st' (m + 1) ∧ ∀ x, x ≠ "System`$ModuleNumber" → st'.defs x = st.defs x := by
  obtain ⟨i, hi, hfree, hall⟩ := exists_free (k := k) stem hf
  obtain ⟨st', hd, hfr, hnum, hsame⟩ := define_number strLen ht hn (k + i + 1)
  refine ⟨st', k + i, ?_, by omega, by omega, hfree, hfr, hnum, hsame⟩
  unfold snagUnique
  rw [getSymDef_number hn]
  simp only
  rw [wrap64_room h0 (by omega), snagLoop_mono _ _ _ n _ _ (snagLoop_least _ _ i k h0 (by omega) hfree hall) (by omega)]
  simp only [snagFinish]
  rw [wrap64_room (by omega) (by omega), hd]
  rfl

theorem endsOpen_dollar (x : String) : EndsOpen (x ++ "$") := ⟨x.toList, '$', by simp, by decide⟩

theorem snagAll_spec (strLen : Ex → Nat) {names : List String} {n : Nat} (hfuel : names.length < n) : ∀ (ls : List Local) (st : DState) (k : Int),
    st.frozen = false → NextNumber st k → 0 ≤ k → (∀ x, st.defs x ≠ none → x ∈ names) → k + (names.length + 1) * (ls.length + 1) < 2 ^ 63 - 1 →
    ∃ st' us k', snagAll strLen n st ls = .ok (st', us) ∧ us.map Prod.fst = ls ∧ (us.map Prod.snd).Nodup ∧ (∀ p ∈ us, st.defs p.2 = none) ∧
      (∀ p ∈ us, ∃ m, k ≤ m ∧ m < k' ∧ p.2 = numbered (p.1.name ++ "$") m) ∧ k ≤ k' ∧ NextNumber st' k' ∧ st'.frozen = false ∧ ∀ x, x ≠ "System`$ModuleNumber" → st'.defs x = st.defs x
  | [], st, k, ht, hn, _, _, _ => ⟨st, [], k, rfl, rfl, .nil, by simp, by simp, le_refl _, hn, ht, fun _ _ => rfl⟩
  | l :: ls, st, k, ht, hn, h0, hf, hlt => by
    have hmul : ((names.length : Int) + 1) * ((l :: ls).length + 1) = (names.length + 1) * (ls.length + 1) + (names.length + 1) := by
      simp only [List.length_cons]; push_cast; ring
    have hpos : 0 ≤ ((names.length : Int) + 1) * (ls.length + 1) := by positivity
    rw [hmul] at hlt
    obtain ⟨st1, m, h1, h2, h3, h4, h5, h6, h7⟩ := snag_core strLen ht hn h0 hf (by omega) (l.name ++ "$") hfuel
    obtain ⟨d, sp, rest, hd, -⟩ := hn
    have hf1 : ∀ x, st1.defs x ≠ none → x ∈ names := by
      intro x hx
      by_cases he : x = "System`$ModuleNumber"
      · exact hf x (by rw [he, hd]; simp)
      · exact hf x (by rwa [h7 x he] at hx)
    obtain ⟨st2, us, k', g1, g2, g3, g4, g5, gk, gn, g6, g7⟩ := snagAll_spec strLen hfuel ls st1 (m + 1) h5 h6 (by omega) hf1 (by omega)
    refine ⟨st2, (l, numbered (l.name ++ "$") m) :: us, k', ?_, by simp [g2], ?_, ?_, ?_, by omega, gn, g6, ?_⟩
    · rw [snagAll, h1]
      show ((snagAll strLen n st1 ls).bind fun q => Res.ok (q.1, (l, numbered (l.name ++ "$") m) :: q.2)) = _
      rw [g1]; rfl
    · rw [List.map_cons, List.nodup_cons]
      refine ⟨?_, g3⟩
      intro hmem
      obtain ⟨p, hp, he⟩ := List.mem_map.1 hmem
      obtain ⟨m', hm', -, hpe⟩ := g5 p hp
      rw [hpe] at he
      have := numbered_open (endsOpen_dollar _) (endsOpen_dollar _) (by omega) (by omega) he
      omega
    · intro p hp
      rcases List.mem_cons.1 hp with rfl | hp
      · exact h4
      · have := g4 p hp
        have hne : p.2 ≠ "System`$ModuleNumber" := by
          intro he
          obtain ⟨d', _, _, hd', -⟩ := h6
          rw [he, hd'] at this
          simp at this
        rw [← h7 _ hne]; exact this
    · intro p hp
      rcases List.mem_cons.1 hp with rfl | hp
      · exact ⟨m, h2, by omega, rfl⟩
      · obtain ⟨m', hm', hlt', hpe⟩ := g5 p hp
        exact ⟨m', by omega, hlt', hpe⟩
    · intro x hx
      rw [g7 x hx, h7 x hx]

theorem parseLocal_expr (l : Local) : parseLocal (localExpr l) = some l := by
  obtain ⟨x, i⟩ := l
  cases i <;> rfl

theorem parseLocals_expr (ls : List Local) : parseLocals (ls.map localExpr) = some ls := by
  induction ls with
  | nil => rfl
  | cons l ls ih => simp [parseLocals, parseLocal_expr, ih]

theorem getSymDef_localDef (st : EState) (u : String) (v : Ex) : getSymDef (st.put u (localDef u v)).toDState u = some v := by
  unfold getSymDef EState.put
  simp only [Table.set, if_true, localDef]
  rw [List.find?_cons_of_pos (by rfl)]
  rfl

theorem getSymDef_put_ne (st : EState) {u x : String} (d : DefM) (h : x ≠ u) : getSymDef (st.put u d).toDState x = getSymDef st.toDState x := by
  unfold getSymDef EState.put
  simp [Table.set, h]

theorem defineLocals_spec {ev : Evaluator} {g : Ex → Ex} (run : ∀ st e, ev st e = .ok (st, g e)) : ∀ (us : List (Local × String)) (st : EState) (pm : PM),
    (us.map Prod.snd).Nodup → ∃ st' pm', defineLocals ev st us pm = .ok (st', pm') ∧ st'.thrown = st.thrown ∧
      (∀ p ∈ us, st'.defs p.2 ≠ none ∧ getSymDef st'.toDState p.2 = p.1.init.value g) ∧
      ∀ x, x ∉ us.map Prod.snd → st'.defs x = st.defs x
  | [], st, pm, _ => ⟨st, pm, rfl, rfl, by simp, fun _ _ => rfl⟩
  | (l, u) :: us, st, pm, hn => by
    rw [List.map_cons, List.nodup_cons] at hn
    have step : ∀ d, (getSymDef (st.put u d).toDState u = l.init.value g) → ∃ st' pm',
        defineLocals ev (st.put u d) us (PM.set pm l.name (.sym u)) = .ok (st', pm') ∧ st'.thrown = st.thrown ∧
        (∀ p ∈ (l, u) :: us, st'.defs p.2 ≠ none ∧ getSymDef st'.toDState p.2 = p.1.init.value g) ∧ ∀ x, x ∉ ((l, u) :: us).map Prod.snd → st'.defs x = st.defs x := by
      intro d hd
      obtain ⟨st', pm', h1, h2, h3, h4⟩ := defineLocals_spec run us (st.put u d) (PM.set pm l.name (.sym u)) hn.2
      refine ⟨st', pm', h1, h2, ?_, ?_⟩
      · intro p hp
        rcases List.mem_cons.1 hp with rfl | hp
        · have e := h4 u hn.1
          constructor
          · show st'.defs u ≠ none
            rw [e]; simp [EState.put, Table.set]
          · show getSymDef st'.toDState u = l.init.value g
            rw [← hd]
            unfold getSymDef
            rw [e]
        · exact h3 p hp
      · intro x hx
        rw [List.map_cons, List.mem_cons, not_or] at hx
        rw [h4 x hx.2]
        simp [EState.put, Table.set, hx.1]
    unfold defineLocals
    cases hi : l.init with
    | none => exact step {} (by rw [hi]; simp [getSymDef, EState.put, Table.set, Init.value])
    | delayed v => exact step (localDef u v) (by rw [hi]; exact getSymDef_localDef st u v)
    | set v =>
      simp only [run]
      exact step (localDef u (g v)) (by rw [hi]; exact getSymDef_localDef st u (g v))

/-- C50, `Module`. In a state with finitely many names and an evaluator without effects on it (`g` gives the values), `Module[{locals}, body]` returns the body with the
local variables renamed, all at once, to names `x$m` that were unknown before and differ from each other, with numbers between the old and the new value of
`$ModuleNumber`; the new names are entered, with the initial values: for
`x = v` the value of `v` in the outer scope, for `x := v` just `v`, for `x` none. Nothing else is changed, except `$ModuleNumber`. -/
theorem C50_Module (strLen : Ex → Nat) (st : EState) (k : Int) (names : List String) (ls : List Local) (hd body : Ex) (ev : Evaluator) (g : Ex → Ex) (n : Nat)
    (run : ∀ st e, ev st e = .ok (st, g e)) (ht : st.frozen = false) (hn : NextNumber st.toDState k) (h0 : 0 ≤ k) (hf : ∀ x, st.defs x ≠ none → x ∈ names)
    (hlt : k + (names.length + 1) * (ls.length + 1) < 2 ^ 63 - 1) (hfuel : names.length < n) :
    ∃ st' us, us.map Prod.fst = ls ∧ moduleFn strLen n ev st [hd, .expr (S "List" :: ls.map localExpr), body] = .ok (st', subst (localNames us) body) ∧
      (us.map Prod.snd).Nodup ∧ (∀ p ∈ us, st.defs p.2 = none) ∧ (∀ p ∈ us, st'.defs p.2 ≠ none ∧ getSymDef st'.toDState p.2 = p.1.init.value g) ∧
      (∃ k', NextNumber st'.toDState k' ∧ ∀ p ∈ us, ∃ m, k ≤ m ∧ m < k' ∧ p.2 = p.1.name ++ "$" ++ toString m) ∧ ∀ x, x ∉ us.map Prod.snd → x ≠ "System`$ModuleNumber" → st'.defs x = st.defs x := by
  obtain ⟨st1, us, k', h1, h2, h3, h4, h5, -, hk', -, h7⟩ := snagAll_spec strLen hfuel ls st.toDState k ht hn h0 hf hlt
  obtain ⟨st2, pm, g1, -, g3, g4⟩ := defineLocals_spec run us { st with toDState := st1 } [] h3
  refine ⟨st2, us, h2, ?_, h3, h4, g3, ⟨k', ?_, h5⟩, ?_⟩
  · have : (argsOf "System`List" (.expr (S "List" :: ls.map localExpr))).bind parseLocals = some ls := by
      simp [argsOf, S, parseLocals_expr]
    unfold moduleFn
    simp only [this]
    unfold moduleRun
    rw [h1]
    simp only [Res.bind]
    rw [g1]
    simp only
    rw [C22_substitution]
    have : pm.get = localNames us := by
      funext x
      rw [defineLocals_pm us _ _ _ _ g1 x]
      cases localNames us x <;> rfl
    rw [this]
  · obtain ⟨d, sp, rest, hd1, hd2⟩ := hk'
    refine ⟨d, sp, rest, ?_, hd2⟩
    rw [g4 _ ?_]
    · exact hd1
    · intro hm
      obtain ⟨p, hp, he⟩ := List.mem_map.1 hm
      obtain ⟨d', _, _, hd', -⟩ := hn
      have := h4 p hp
      rw [he, hd'] at this
      simp at this
  · intro x hx hne
    rw [g4 x hx]
    exact h7 x hne

/-- `Module[{x, y = 1}, {x, y}]` with `$ModuleNumber = 3` meets the hypotheses. -/
example : (onlyNumber 3).frozen = false ∧ NextNumber (onlyNumber 3) 3 ∧ (∀ x, (onlyNumber 3).defs x ≠ none → x ∈ ["System`$ModuleNumber"]) ∧
    (3 : Int) + (["System`$ModuleNumber"].length + 1) * ([(⟨"Global`x", .none⟩ : Local), ⟨"Global`y", .set (.int 1)⟩].length + 1) < 2 ^ 63 - 1 ∧
    ∀ (st : EState) (e : Ex), (fun (st : EState) (e : Ex) => (.ok (st, e) : Res (EState × Ex))) st e = .ok (st, id e) := by
  refine ⟨rfl, ⟨_, 0, [], rfl, rfl⟩, ?_, by decide, fun _ _ => rfl⟩
  intro x hx
  by_cases h : x = "System`$ModuleNumber"
  · simp [h]
  · exact absurd (by simp [onlyNumber, h]) hx

/-- The new names cannot be captured by the body: if all symbols of the body are known, none of the fresh names occurs in it. -/
theorem C50_Module_fresh_in_body (st : DState) (body : Ex) (us : List (Local × String)) (hfree : ∀ p ∈ us, st.defs p.2 = none)
    (hk : ∀ x, containsSymbol x body = true → st.defs x ≠ none) : ∀ p ∈ us, containsSymbol p.2 body = false := by
  intro p hp
  by_contra h
  exact hk p.2 (by simpa using h) (hfree p hp)

end Expreduce
