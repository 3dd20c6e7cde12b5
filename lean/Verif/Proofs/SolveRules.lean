import Verif.Model.SolveRules
import Verif.Proofs.RuleTactic

/-! The values of the formulas of `Solve` and `Inverse`. -/

namespace Expreduce
open Ex Shipped

section
variable {V : Interp}

theorem den_vals {es : List Ex} {vs : List ℂ} (h : List.Forall₂ V.Denotes es vs) : V.meaning.vals es = vs.map some := by
  induction h with
  | nil => rfl
  | cons h _ ih =>
    rw [Meaning.vals_cons, ih, show V.meaning.argVals _ = _ from h]
    rfl

theorem den_app {s : String} {es : List Ex} {vs : List ℂ} {v : ℂ} (hs : s ≠ "System`Sequence") (h : List.Forall₂ V.Denotes es vs)
    (hv : arithValue V s vs = some v) : V.Denotes (.expr (.sym s :: es)) v := by
  unfold Interp.Denotes
  rw [Meaning.argVals_app hs, den_vals h, meaning_op_some, hv]

theorem den_int (n : Int) : V.Denotes (.int n) (n : ℂ) := rfl

theorem den_add {es : List Ex} {vs : List ℂ} (h : List.Forall₂ V.Denotes es vs) : V.Denotes (add es) vs.sum :=
  den_app (by decide) h (by simp [arithValue])

theorem den_mul {es : List Ex} {vs : List ℂ} (h : List.Forall₂ V.Denotes es vs) : V.Denotes (mul es) vs.prod :=
  den_app (by decide) h (by simp [arithValue])

theorem den_pow {a b : Ex} {x y v : ℂ} (ha : V.Denotes a x) (hb : V.Denotes b y) (h : powValue x y = some v) : V.Denotes (pow a b) v :=
  den_app (by decide) (.cons ha (.cons hb .nil)) (by
    rw [arithValue, if_neg (by decide), if_neg (by decide), if_pos (by decide)]
    have : powValue y 1 = some y := by
      unfold powValue
      split
      · rename_i h0; simp [h0]
      · simp
    simp [this, h])

theorem den_neg {a : Ex} {x : ℂ} (ha : V.Denotes a x) : V.Denotes (neg a) (-x) := by
  have := den_mul (.cons (den_int (V := V) (-1)) (.cons ha .nil))
  simpa [neg] using this

theorem den_sub {a b : Ex} {x y : ℂ} (ha : V.Denotes a x) (hb : V.Denotes b y) : V.Denotes (sub a b) (x - y) := by
  have := den_add (.cons ha (.cons (den_neg hb) .nil))
  simpa [sub, sub_eq_add_neg] using this

theorem den_dv {a b : Ex} {x y : ℂ} (ha : V.Denotes a x) (hb : V.Denotes b y) (h : y ≠ 0) : V.Denotes (dv a b) (x / y) := by
  have hp : V.Denotes (pow b (.int (-1))) y⁻¹ := den_pow hb (den_int _) (by
    unfold powValue
    rw [if_neg h]
    simp [Complex.cpow_neg_one])
  have := den_mul (.cons ha (.cons hp .nil))
  simpa [dv, div_eq_mul_inv] using this

theorem den_sq {a : Ex} {x : ℂ} (ha : V.Denotes a x) : V.Denotes (sq a) (x ^ 2) := den_pow ha (den_int _) (by
  unfold powValue
  split
  · rename_i h; simp [h]
  · simp)

theorem den_cube {a : Ex} {x : ℂ} (ha : V.Denotes a x) : V.Denotes (cube a) (x ^ 3) := den_pow ha (den_int _) (by
  unfold powValue
  split
  · rename_i h; simp [h]
  · simp)

/-- Square and cube roots are defined for all numbers. -/
theorem powValue_root {x y : ℂ} (hy : 0 < y.re) : powValue x y = some (x ^ y) := by
  unfold powValue
  split
  · rename_i h
    have : y ≠ 0 := by rintro rfl; simp at hy
    simp [h, hy, this]
  · rfl

theorem half_re : 0 < ((1 : ℂ) / 2).re := by norm_num
theorem third_re : 0 < ((1 : ℂ) / 3).re := by norm_num

theorem den_root2 (hS : V.Standard) {a : Ex} {x : ℂ} (ha : V.Denotes a x) : V.Denotes (root2 a) (x ^ ((1 : ℂ) / 2)) :=
  den_app (by decide) (.cons ha .nil) (by
    unfold arithValue
    simp only [String.reduceEq, String.reduceAppend, if_false]
    rw [hS.sqrt, powValue_root half_re])

theorem den_third : V.Denotes (dv (.int 1) (.int 3)) ((1 : ℂ) / 3) := by
  have := den_dv (den_int (V := V) 1) (den_int 3) (by norm_num)
  simpa using this

theorem den_root3 {a : Ex} {x : ℂ} (ha : V.Denotes a x) : V.Denotes (root3 a) (x ^ ((1 : ℂ) / 3)) :=
  den_pow ha den_third (powValue_root third_re)

theorem den_i (hS : V.Standard) : V.Denotes i Complex.I := by
  unfold Interp.Denotes
  rw [show i = Ex.sym "System`I" from rfl, Meaning.argVals_one _ rfl, Meaning.val]
  · change [atomValue V (.sym "System`I")] = _
    rw [atomValue, if_neg (by decide), hS.i]
  all_goals simp

/-- The square of the square root, the cube of the cube root. -/
theorem root2_sq (x : ℂ) : (x ^ ((1 : ℂ) / 2)) ^ 2 = x := by
  rw [one_div]
  exact Complex.cpow_nat_inv_pow x (by norm_num)

theorem root3_cube (x : ℂ) : (x ^ ((1 : ℂ) / 3)) ^ 3 = x := by
  rw [one_div]
  exact Complex.cpow_nat_inv_pow x (by norm_num)

end
end Expreduce
