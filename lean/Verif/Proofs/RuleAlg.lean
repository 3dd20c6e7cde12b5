import Verif.Spec.Standard
import Verif.Proofs.Algebra4
import Verif.Proofs.PatCheck

/-! Tools for showing that rules keep the mathematical value. -/

namespace Expreduce
open Ex

section
variable {V : Interp}

/-! ### The operations as partial functions -/

theorem allSome_cons {α : Type _} (x : Option α) (xs : List (Option α)) : allSome (x :: xs) = x.bind (fun a => (allSome xs).map (a :: ·)) := by
  cases x <;> simp [allSome]

theorem allSome_append {α : Type _} (xs ys : List (Option α)) : allSome (xs ++ ys) = (allSome xs).bind (fun a => (allSome ys).map (a ++ ·)) := by
  induction xs with
  | nil => simp [allSome]
  | cons x xs ih =>
    rw [List.cons_append, allSome_cons, allSome_cons, ih]
    cases x with
    | none => rfl
    | some a => cases allSome xs <;> cases allSome ys <;> rfl

theorem times_nil : V.meaning.op "System`Times" [] = some 1 := by
  rw [meaning_op]; simp [allSome, arith_times]

theorem times_append (xs ys : List (Option ℂ)) :
    V.meaning.op "System`Times" (xs ++ ys) = (V.meaning.op "System`Times" xs).bind (fun a => (V.meaning.op "System`Times" ys).map (a * ·)) := by
  simp only [meaning_op, allSome_append]
  cases allSome xs <;> cases allSome ys <;> simp [arith_times]

theorem times_one (x : Option ℂ) : V.meaning.op "System`Times" [x] = x := by
  rw [meaning_op]; cases x <;> simp [allSome, arith_times]

theorem times_cons (x : Option ℂ) (xs : List (Option ℂ)) :
    V.meaning.op "System`Times" (x :: xs) = x.bind (fun a => (V.meaning.op "System`Times" xs).map (a * ·)) := by
  have := times_append (V := V) [x] xs
  rw [times_one] at this
  exact this

theorem plus_nil : V.meaning.op "System`Plus" [] = some 0 := by
  rw [meaning_op]; simp [allSome, arith_plus]

theorem plus_append (xs ys : List (Option ℂ)) :
    V.meaning.op "System`Plus" (xs ++ ys) = (V.meaning.op "System`Plus" xs).bind (fun a => (V.meaning.op "System`Plus" ys).map (a + ·)) := by
  simp only [meaning_op, allSome_append]
  cases allSome xs <;> cases allSome ys <;> simp [arith_plus]

theorem plus_one (x : Option ℂ) : V.meaning.op "System`Plus" [x] = x := by
  rw [meaning_op]; cases x <;> simp [allSome, arith_plus]

theorem plus_cons (x : Option ℂ) (xs : List (Option ℂ)) :
    V.meaning.op "System`Plus" (x :: xs) = x.bind (fun a => (V.meaning.op "System`Plus" xs).map (a + ·)) := by
  have := plus_append (V := V) [x] xs
  rw [plus_one] at this
  exact this

theorem power_two (x y : Option ℂ) : V.meaning.op "System`Power" [x, y] = x.bind (fun a => y.bind (powValue a)) := by
  rw [meaning_op]
  cases x <;> cases y <;> simp [allSome, arith_pow]

theorem power_one (x : Option ℂ) : V.meaning.op "System`Power" [x] = x := by
  rw [meaning_op]
  cases x <;> simp [allSome, arith_power, powValue_one]

open Classical in
theorem rational_two (x y : Option ℂ) : V.meaning.op "System`Rational" [x, y] = x.bind (fun a => y.bind (fun b => if b = 0 then none else some (a / b))) := by
  rw [meaning_op]
  cases x <;> cases y <;> simp [allSome, arith_rational]

theorem complex_two (x y : Option ℂ) : V.meaning.op "System`Complex" [x, y] = x.bind (fun a => y.map (fun b => a + Complex.I * b)) := by
  rw [meaning_op]
  cases x <;> cases y <;> simp [allSome, arith_complex]

/-- The functions that are not arithmetic. -/
def arithHeads : List String := ["System`Plus", "System`Times", "System`Power", "System`Rational", "System`Complex"]

theorem fn_one {s : String} (hs : s ∉ arithHeads) (x : Option ℂ) : V.meaning.op s [x] = x.bind (fun a => V.fn s [a]) := by
  rw [meaning_op]
  simp only [arithHeads, List.mem_cons, List.not_mem_nil, or_false, not_or] at hs
  cases x <;> simp [allSome, arithValue, hs]

theorem powValue_iff (x y v : ℂ) : powValue x y = some v ↔ (x = 0 ∧ 0 < y.re ∧ v = 0) ∨ (x ≠ 0 ∧ v = x ^ y) := by
  unfold powValue
  by_cases hx : x = 0
  · by_cases hy : 0 < y.re
    · simp [hx, hy, eq_comm]
    · simp [hx, hy]
  · simp [hx, eq_comm]

theorem powValue_ne {x : ℂ} (hx : x ≠ 0) (y : ℂ) : powValue x y = some (x ^ y) := by simp [powValue, hx]

theorem powValue_zero {y : ℂ} (hy : 0 < y.re) : powValue 0 y = some 0 := by simp [powValue, hy]

/-- A power with an integer exponent. -/
theorem powValue_int {x : ℂ} {n : Int} {v : ℂ} (h : powValue x (n : ℂ) = some v) : v = x ^ n ∧ (x = 0 → 0 < n) := by
  rw [powValue_iff] at h
  rcases h with ⟨rfl, h2, rfl⟩ | ⟨h1, rfl⟩
  · have : 0 < n := by simpa using h2
    exact ⟨(zero_zpow n (by omega)).symm, fun _ => this⟩
  · exact ⟨by simp, fun h => absurd h h1⟩

theorem powValue_int_some {x : ℂ} {n : Int} (h : x = 0 → 0 < n) : powValue x (n : ℂ) = some (x ^ n) := by
  by_cases hx : x = 0
  · subst hx
    rw [powValue_zero (by simpa using h rfl), zero_zpow n (by have := h rfl; omega)]
  · rw [powValue_ne hx]; simp

theorem powValue_neg_one {x v : ℂ} (h : powValue x (-1) = some v) : x ≠ 0 ∧ v = x⁻¹ := by
  have h' : powValue x ((-1 : Int) : ℂ) = some v := by simpa using h
  obtain ⟨h1, h2⟩ := powValue_int h'
  refine ⟨fun hx => by have := h2 hx; omega, by simpa using h1⟩

theorem powValue_neg_one_some {x : ℂ} (h : x ≠ 0) : powValue x (-1) = some x⁻¹ := by
  rw [powValue_ne h, Complex.cpow_neg_one]

theorem powValue_add {x y z a b : ℂ} (h1 : powValue x y = some a) (h2 : powValue x z = some b) : powValue x (y + z) = some (a * b) := by
  rw [powValue_iff] at h1 h2
  rcases h1 with ⟨rfl, h3, rfl⟩ | ⟨h3, rfl⟩
  · rcases h2 with ⟨_, h4, rfl⟩ | ⟨h4, _⟩
    · rw [powValue_zero (by simp; linarith)]; simp
    · exact absurd rfl h4
  · rcases h2 with ⟨h4, _⟩ | ⟨_, rfl⟩
    · exact absurd h4 h3
    · rw [powValue_ne h3, Complex.cpow_add _ _ h3]

theorem powValue_mul_int {x y a b : ℂ} {n : Int} (h1 : powValue x y = some a) (h2 : powValue a n = some b) : powValue x (y * n) = some b := by
  obtain ⟨rfl, h4⟩ := powValue_int h2
  rw [powValue_iff] at h1
  rcases h1 with ⟨rfl, h3, rfl⟩ | ⟨h3, rfl⟩
  · have := h4 rfl
    rw [powValue_zero, zero_zpow _ (by omega)]
    have : (0 : ℝ) < n := by exact_mod_cast this
    simp only [Complex.mul_re, Complex.intCast_re, Complex.intCast_im, mul_zero, sub_zero]
    positivity
  · rw [powValue_ne h3, Complex.cpow_mul_int]

theorem powValue_prod_int {x y b : ℂ} {n : Int} (h : powValue (x * y) n = some b) : ∃ c d, powValue x n = some c ∧ powValue y n = some d ∧ b = c * d := by
  obtain ⟨rfl, h2⟩ := powValue_int h
  exact ⟨x ^ n, y ^ n, powValue_int_some (fun hx => h2 (by simp [hx])), powValue_int_some (fun hy => h2 (by simp [hy])), mul_zpow x y n⟩

/-- A negative base. -/
theorem neg_cpow {c : ℝ} (hc : 0 < c) (y : ℂ) : (-(c : ℂ)) ^ y = (-1) ^ y * (c : ℂ) ^ y := by
  have h := Complex.mul_cpow_ofReal_nonneg (le_of_lt hc) (zero_le_one) y
  have h0 : (-(c : ℂ)) = -1 * (c : ℂ) := by ring
  have hc0 : (c : ℂ) ≠ 0 := by exact_mod_cast hc.ne'
  rw [Complex.cpow_def_of_ne_zero (by simpa using hc0), Complex.cpow_def_of_ne_zero (by norm_num), Complex.cpow_def_of_ne_zero hc0, ← Complex.exp_add]
  congr 1
  have : Complex.log (-(c : ℂ)) = Complex.log (-1) + Complex.log c := by
    have h2 := Complex.log_ofReal_mul hc (x := (-1 : ℂ)) (by norm_num)
    rw [show (-(c : ℂ)) = (c : ℂ) * -1 by ring, h2, Complex.ofReal_log (le_of_lt hc)]
    ring
  rw [this]
  ring

/-! ### The standard functions -/

theorem val_rat_lit (n d : Int) : V.meaning.val (.rat n d) = if d = 0 then none else some ((n : ℂ) / d) := by
  by_cases h : d = 0
  · subst h
    have : V.meaning.val (.rat n 0) = V.meaning.op "System`Rational" [some (n : ℂ), some ((0 : Int) : ℂ)] := rfl
    rw [this, rational_two]
    simp
  · rw [val_rat V h, if_neg h]

theorem val_iNum : V.meaning.val (.cplx (.int 0) (.int 1)) = some Complex.I := by
  have : V.meaning.val (.cplx (.int 0) (.int 1)) = V.meaning.op "System`Complex" [some ((0 : Int) : ℂ), some ((1 : Int) : ℂ)] := rfl
  rw [this, complex_two]
  simp

theorem val_sym (s : String) : V.meaning.val (.sym s) = if s ∈ noNumber then none else V.sym s := rfl
theorem val_infinity : V.meaning.val (.sym "System`Infinity") = none := by rw [val_sym, if_pos (by decide)]
theorem val_complexInfinity : V.meaning.val (.sym "System`ComplexInfinity") = none := by rw [val_sym, if_pos (by decide)]
theorem val_indeterminate : V.meaning.val (.sym "System`Indeterminate") = none := by rw [val_sym, if_pos (by decide)]

namespace Interp.Standard
variable (hS : V.Standard)
include hS

theorem val_e : V.meaning.val (.sym "System`E") = some (Complex.exp 1) := by rw [val_sym, if_neg (by decide), hS.e]
theorem val_pi : V.meaning.val (.sym "System`Pi") = some (Real.pi : ℂ) := by rw [val_sym, if_neg (by decide), hS.pi]
theorem val_i : V.meaning.val (.sym "System`I") = some Complex.I := by rw [val_sym, if_neg (by decide), hS.i]

open Classical in
theorem op_log (x : Option ℂ) : V.meaning.op "System`Log" [x] = x.bind (fun z => if z = 0 then none else some (Complex.log z)) := by
  rw [fn_one (by decide)]; simp only [hS.log]
theorem op_sqrt (x : Option ℂ) : V.meaning.op "System`Sqrt" [x] = x.bind (fun z => powValue z (1 / 2)) := by
  rw [fn_one (by decide)]; simp only [hS.sqrt]
theorem op_sin (x : Option ℂ) : V.meaning.op "System`Sin" [x] = x.bind (fun z => some (Complex.sin z)) := by
  rw [fn_one (by decide)]; simp only [hS.sin]
theorem op_cos (x : Option ℂ) : V.meaning.op "System`Cos" [x] = x.bind (fun z => some (Complex.cos z)) := by
  rw [fn_one (by decide)]; simp only [hS.cos]
theorem op_sinh (x : Option ℂ) : V.meaning.op "System`Sinh" [x] = x.bind (fun z => some (Complex.sinh z)) := by
  rw [fn_one (by decide)]; simp only [hS.sinh]
theorem op_cosh (x : Option ℂ) : V.meaning.op "System`Cosh" [x] = x.bind (fun z => some (Complex.cosh z)) := by
  rw [fn_one (by decide)]; simp only [hS.cosh]
open Classical in
theorem op_tan (x : Option ℂ) : V.meaning.op "System`Tan" [x] = x.bind (fun z => if Complex.cos z = 0 then none else some (Complex.tan z)) := by
  rw [fn_one (by decide)]; simp only [hS.tan]
open Classical in
theorem op_cot (x : Option ℂ) : V.meaning.op "System`Cot" [x] = x.bind (fun z => if Complex.sin z = 0 then none else some (Complex.cos z / Complex.sin z)) := by
  rw [fn_one (by decide)]; simp only [hS.cot]
open Classical in
theorem op_sec (x : Option ℂ) : V.meaning.op "System`Sec" [x] = x.bind (fun z => if Complex.cos z = 0 then none else some (1 / Complex.cos z)) := by
  rw [fn_one (by decide)]; simp only [hS.sec]
open Classical in
theorem op_csc (x : Option ℂ) : V.meaning.op "System`Csc" [x] = x.bind (fun z => if Complex.sin z = 0 then none else some (1 / Complex.sin z)) := by
  rw [fn_one (by decide)]; simp only [hS.csc]
open Classical in
theorem op_coth (x : Option ℂ) : V.meaning.op "System`Coth" [x] = x.bind (fun z => if Complex.sinh z = 0 then none else some (Complex.cosh z / Complex.sinh z)) := by
  rw [fn_one (by decide)]; simp only [hS.coth]
open Classical in
theorem op_csch (x : Option ℂ) : V.meaning.op "System`Csch" [x] = x.bind (fun z => if Complex.sinh z = 0 then none else some (1 / Complex.sinh z)) := by
  rw [fn_one (by decide)]; simp only [hS.csch]
open Classical in
theorem op_arctan (x : Option ℂ) : V.meaning.op "System`ArcTan" [x] =
    x.bind (fun z => if z = Complex.I ∨ z = -Complex.I then none else some (Complex.arctan z)) := by
  rw [fn_one (by decide)]; simp only [hS.arctan]

end Interp.Standard

end

end Expreduce
