import Verif.Spec.Algebra
import Verif.Proofs.EvalMeaning
import Verif.Proofs.EvalMono
import Verif.Proofs.RuleTool
import Verif.Proofs.Built
import Verif.Proofs.PowerShape

/-! The interpreter with exact arithmetic keeps the values of expressions. -/

namespace Expreduce
open Ex

theorem allSome_map {α : Type _} : ∀ {xs : List (Option α)} {l : List α}, allSome xs = some l ↔ xs = l.map some
  | [], l => by cases l <;> simp [allSome]
  | none :: xs, l => by cases l <;> simp [allSome]
  | some a :: xs, l => by
    rw [allSome]
    cases l with
    | nil => simp
    | cons b l =>
      simp only [Option.map_eq_some_iff, List.cons.injEq, List.map_cons, Option.some.injEq]
      constructor
      · rintro ⟨l', h, rfl, rfl⟩
        exact ⟨rfl, allSome_map.1 h⟩
      · rintro ⟨rfl, h⟩
        exact ⟨l, allSome_map.2 h, rfl, rfl⟩

theorem allSome_some {α : Type _} (l : List α) : allSome (l.map some) = some l := allSome_map.2 rfl

theorem Refines.refl (x : Option ℂ) : Refines x x := fun _ h => h
theorem Refines.trans {x y z : Option ℂ} (h1 : Refines x y) (h2 : Refines y z) : Refines x z := fun v h => h2 v (h1 v h)
theorem Refines.none (y : Option ℂ) : Refines none y := fun _ h => by cases h

section
variable (V : Interp)

theorem meaning_op (s : String) (xs : List (Option ℂ)) : V.meaning.op s xs = (allSome xs).bind (arithValue V s) := rfl

theorem meaning_op_some (s : String) (l : List ℂ) : V.meaning.op s (l.map some) = arithValue V s l := by
  rw [meaning_op, allSome_some]; rfl

theorem meaning_op_def {s : String} {xs : List (Option ℂ)} {v : ℂ} (h : V.meaning.op s xs = some v) : ∃ l, xs = l.map some ∧ arithValue V s l = some v := by
  rw [meaning_op] at h
  obtain ⟨l, h1, h2⟩ := Option.bind_eq_some_iff.1 h
  exact ⟨l, allSome_map.1 h1, h2⟩

theorem refines_map : ∀ {l : List ℂ} {ys : List (Option ℂ)}, List.Forall₂ Refines (l.map some) ys → ys = l.map some
  | [], _, .nil => rfl
  | a :: l, _, .cons h t => by rw [List.map_cons, refines_map t, h a rfl]

theorem meaning_mono (s : String) (xs ys : List (Option ℂ)) (h : List.Forall₂ Refines xs ys) : Refines (V.meaning.op s xs) (V.meaning.op s ys) := by
  intro v hv
  obtain ⟨l, rfl, _⟩ := meaning_op_def V hv
  rw [refines_map h]
  exact hv

theorem arith_plus (l : List ℂ) : arithValue V "System`Plus" l = some l.sum := by simp [arithValue]
theorem arith_times (l : List ℂ) : arithValue V "System`Times" l = some l.prod := by simp [arithValue]
theorem arith_power (l : List ℂ) : arithValue V "System`Power" l = l.foldr (fun x acc => acc.bind (powValue x)) (some 1) := by simp [arithValue]
theorem powValue_one (x : ℂ) : powValue x 1 = some x := by
  unfold powValue
  split
  · rename_i h; simp [h]
  · simp
theorem arith_pow (x y : ℂ) : arithValue V "System`Power" [x, y] = powValue x y := by
  simp [arith_power, powValue_one]
open Classical in
theorem arith_rational (a b : ℂ) : arithValue V "System`Rational" [a, b] = if b = 0 then none else some (a / b) := by simp [arithValue]
theorem arith_complex (a b : ℂ) : arithValue V "System`Complex" [a, b] = some (a + Complex.I * b) := by simp [arithValue]

theorem arith_rational_iff {l : List ℂ} {v : ℂ} (h : arithValue V "System`Rational" l = some v) : ∃ a b, l = [a, b] ∧ b ≠ 0 ∧ v = a / b := by
  rcases l with _ | ⟨a, _ | ⟨b, _ | ⟨c, l⟩⟩⟩
  · simp [arithValue] at h
  · simp [arithValue] at h
  · rw [arith_rational] at h
    split at h
    · cases h
    · rename_i hb; cases h; exact ⟨a, b, rfl, hb, rfl⟩
  · simp [arithValue] at h

/-! ### Numbers -/

theorem val_int (n : Int) : V.meaning.val (.int n) = some (n : ℂ) := rfl

theorem val_rat {n d : Int} (hd : d ≠ 0) : V.meaning.val (.rat n d) = some ((n : ℂ) / d) := by
  have : V.meaning.val (.rat n d) = V.meaning.op "System`Rational" (([(n : ℂ), (d : ℂ)]).map some) := rfl
  rw [this, meaning_op_some, arith_rational, if_neg (by exact_mod_cast hd)]

theorem val_real {e : Ex} (h : ExactReal e) (ρ : Ex → ℂ) : V.meaning.val e = some (value ρ Complex.I e) ∧ V.meaning.argVals e = [V.meaning.val e] := by
  cases e <;> simp only [ExactReal] at h
  · exact ⟨rfl, rfl⟩
  · rw [val_rat V h]; exact ⟨rfl, by rw [← val_rat V h]; rfl⟩

theorem val_num {e : Ex} (h : ExactNum e) (ρ : Ex → ℂ) : V.meaning.val e = some (value ρ Complex.I e) ∧ V.meaning.argVals e = [V.meaning.val e] := by
  cases e with
  | cplx a b =>
    simp only [ExactNum] at h
    refine ⟨?_, rfl⟩
    have : V.meaning.val (.cplx a b) = V.meaning.op "System`Complex" (V.meaning.argVals a ++ V.meaning.argVals b) := rfl
    rw [this, (val_real V h.1 ρ).2, (val_real V h.2 ρ).2, (val_real V h.1 ρ).1, (val_real V h.2 ρ).1]
    have : [some (value ρ Complex.I a)] ++ [some (value ρ Complex.I b)] = ([value ρ Complex.I a, value ρ Complex.I b]).map some := rfl
    rw [this, meaning_op_some, arith_complex]
    simp [value]
  | int n => exact val_real V (e := .int n) trivial ρ
  | rat n d => exact val_real V (e := .rat n d) h ρ
  | _ => simp [ExactNum] at h

theorem canon_num {e : Ex} (h : CanonNum e) : ExactNum e := by
  cases e <;> simp only [CanonNum, CanonReal] at h
  · trivial
  · simp only [ExactNum]; omega
  · exact ⟨canon_exact h.1, canon_exact h.2.1⟩

theorem rational_related {n d : Int} (hd : d ≠ 0) : Related V.meaning Refines (.rat n d) (evalRational n d) := by
  have h1 : ExactNum (evalRational n d) := canon_num (ExactNum.evalNumber_canon (e := .rat n d) hd)
  have h2 := val_num V h1 (fun _ => 0)
  have h3 := val_num V (e := .rat n d) hd (fun _ => 0)
  unfold Related
  rw [h2.2, h3.2, h2.1, h3.1, value_evalRational _ _ n d hd]
  exact .cons (Refines.refl _) .nil

theorem complex_related {re im : Ex} (h1 : ExactReal re) (h2 : ExactReal im) : Related V.meaning Refines (.cplx re im) (evalComplex re im) := by
  have hx : ExactNum (.cplx re im) := ⟨h1, h2⟩
  have h3 : ExactNum (evalComplex re im) := canon_num (ExactNum.evalNumber_canon (e := .cplx re im) hx)
  have h4 := val_num V h3 (fun _ => 0)
  have h5 := val_num V hx (fun _ => 0)
  unfold Related
  rw [h4.2, h5.2, h4.1, h5.1]
  have : value (fun _ => (0 : ℂ)) Complex.I (evalComplex re im) = value (fun _ => (0 : ℂ)) Complex.I (.cplx re im) := by
    exact ExactNum.value_evalNumber (fun _ => (0 : ℂ)) Complex.I (e := .cplx re im) hx
  rw [this]
  exact .cons (Refines.refl _) .nil

end

end Expreduce
