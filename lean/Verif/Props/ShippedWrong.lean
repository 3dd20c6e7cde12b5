import Verif.Props.Shipped

/-! Property C93: shipped rules that change the value of an expression, and the cases in which they do not. -/

namespace Expreduce
open Ex Shipped

/-- The attributes of the arithmetic functions, and one rule for `s`. -/
def oneRuleTable (s : String) (r : Ex × Ex) : Table := fun t =>
  let dvs : List DV := if t = s then [{ lhs := r.1, rhs := r.2 }] else []
  if t = "System`Plus" then some { downvalues := dvs, attrs := { flat := true, orderless := true, oneIdentity := true, listable := true }, dflt := some (.int 0), builtin := true }
  else if t = "System`Times" then some { downvalues := dvs, attrs := { flat := true, orderless := true, oneIdentity := true, listable := true }, dflt := some (.int 1), builtin := true }
  else if t = "System`Power" then some { downvalues := dvs, attrs := { oneIdentity := true, listable := true }, dflt := some (.int 1), builtin := true }
  else if t = s then some { downvalues := dvs } else none

/-- The tests of the rules below hold for numbers. -/
def numbersTruth : Ex → Bool
  | .expr [_, .sym _] => false
  | .expr [_, .expr _] => false
  | .expr [_, _] => true
  | _ => false

/-- Evaluation with this rule. -/
def evalWith (s : String) (r : Ex × Ex) (e : Ex) : Option Ex :=
  match eval (algCtx { truth := numbersTruth }) 30 { defs := oneRuleTable s r } e with
  | .ok r => some r.2
  | _ => none

/-- The rule changes a value: with some values for the symbols and the usual meaning of the functions, an expression evaluates to one with
a different value. -/
def ChangesValue (s : String) (r : Ex × Ex) : Prop :=
  ∃ (val : String → Option ℂ) (e e' : Ex) (v v' : ℂ), evalWith s r e = some e' ∧ (stdInterp val).Denotes e v ∧ (stdInterp val).Denotes e' v' ∧ v ≠ v'

section
variable {val : String → Option ℂ}

theorem denotes_of {V : Interp} {e : Ex} {v : ℂ} (h : hasHead "System`Sequence" e = false) (hv : V.meaning.val e = some v) : V.Denotes e v := by
  unfold Interp.Denotes
  rw [Meaning.argVals_one _ h, hv]

theorem stdInterp_val {s : String} (h : s ∉ ["System`E", "System`Pi", "System`I"]) (h2 : s ∉ noNumber) : (stdInterp val).meaning.val (.sym s) = val s := by
  rw [val_sym, if_neg h2]
  simp only [List.mem_cons, List.not_mem_nil, or_false, not_or] at h
  simp [stdInterp, h]

end

/-- `(-1)^y` -/
theorem neg_one_cpow (y : ℂ) : (-1 : ℂ) ^ y = Complex.exp (Real.pi * Complex.I * y) := by
  rw [Complex.cpow_def_of_ne_zero (by norm_num), Complex.log_neg_one]

/-- `((-1)^(3/2))^(2/3)` is not `-1`. -/
theorem nested_power_values : ((-1 : ℂ) ^ ((3 : ℂ) / 2)) ^ ((2 : ℂ) / 3) ≠ -1 := by
  have h1 : (-1 : ℂ) ^ ((3 : ℂ) / 2) = -Complex.I := by
    rw [neg_one_cpow, show (Real.pi : ℂ) * Complex.I * (3 / 2) = Real.pi * Complex.I + Real.pi / 2 * Complex.I by ring, Complex.exp_add, Complex.exp_pi_mul_I,
      Complex.exp_pi_div_two_mul_I]
    ring
  rw [h1, Complex.cpow_def_of_ne_zero (by simp), Complex.log_neg_I]
  intro h
  rw [← Complex.exp_pi_mul_I, Complex.exp_eq_exp_iff_exists_int] at h
  obtain ⟨n, hn⟩ := h
  have hp : (Real.pi : ℂ) * Complex.I ≠ 0 := mul_ne_zero (by exact_mod_cast Real.pi_ne_zero) Complex.I_ne_zero
  have : (Real.pi : ℂ) * Complex.I * (-1 / 3) = Real.pi * Complex.I * (1 + 2 * n) := by
    linear_combination hn
  have := mul_left_cancel₀ hp this
  have h3 : (-1 : ℂ) = 3 + 6 * n := by linear_combination 3 * this
  have h4 : (-1 : Int) = 3 + 6 * n := by exact_mod_cast h3
  omega

/-- `(-1)^(2/3)` is not `1`. -/
theorem neg_one_two_thirds : (-1 : ℂ) ^ ((1 : ℂ) / 3) * (-1 : ℂ) ^ ((1 : ℂ) / 3) ≠ 1 := by
  rw [neg_one_cpow, ← Complex.exp_add]
  intro h
  rw [Complex.exp_eq_one_iff] at h
  obtain ⟨n, hn⟩ := h
  have hp : (Real.pi : ℂ) * Complex.I ≠ 0 := mul_ne_zero (by exact_mod_cast Real.pi_ne_zero) Complex.I_ne_zero
  have : (Real.pi : ℂ) * Complex.I * (2 / 3) = Real.pi * Complex.I * (2 * n) := by
    linear_combination hn
  have := mul_left_cancel₀ hp this
  have h3 : (1 : ℂ) = 3 * n := by linear_combination 3 / 2 * this
  have h4 : (1 : Int) = 3 * n := by exact_mod_cast h3
  omega

/-- C93. `(x^(3/2))^(2/3)` evaluates to `x`; for `x = -1` the value is not `-1`. -/
theorem C93_wrong_nested_power : ChangesValue "System`Power" nestedPowerRule := by
  refine ⟨fun _ => some (-1), pow (pow (.sym "x") (.rat 3 2)) (.rat 2 3), .sym "x", ((-1 : ℂ) ^ ((3 : ℂ) / 2)) ^ ((2 : ℂ) / 3), -1, by decide +kernel,
    denotes_of (by decide) ?_, denotes_of (by decide) (stdInterp_val (by decide) (by decide)), nested_power_values⟩
  have hx : (stdInterp fun _ => some (-1)).meaning.val (.sym "x") = some (-1) := stdInterp_val (by decide) (by decide)
  have hz : ((-1 : ℂ) ^ ((3 : ℂ) / 2)) ≠ 0 := by rw [neg_one_cpow]; exact Complex.exp_ne_zero _
  simp only [pow, call, S, String.reduceAppend]
  rule_goal [hx, powValue_ne (show (-1 : ℂ) ≠ 0 by norm_num), powValue_ne hz]

/-- C93. `(-2 x)^(1/2)` evaluates to `(-2)^(1/2) x^(1/2)`; for `x = -1` the value is not `2^(1/2)`. -/
theorem C93_wrong_number_factor : ChangesValue "System`Power" numberFactorRule := by
  have hI : (-1 : ℂ) ^ ((1 : ℂ) / 2) = Complex.I := by
    rw [neg_one_cpow, show (Real.pi : ℂ) * Complex.I * (1 / 2) = Real.pi / 2 * Complex.I by ring, Complex.exp_pi_div_two_mul_I]
  have h2 : (-2 : ℂ) ^ ((1 : ℂ) / 2) = Complex.I * (2 : ℂ) ^ ((1 : ℂ) / 2) := by
    have := neg_cpow (c := 2) (by norm_num) ((1 : ℂ) / 2)
    push_cast at this
    rw [this, hI]
  have hx : (stdInterp fun _ => some (-1)).meaning.val (.sym "x") = some (-1) := stdInterp_val (by decide) (by decide)
  refine ⟨fun _ => some (-1), pow (mul [.int (-2), .sym "x"]) (.rat 1 2), mul [pow (.int (-2)) (.rat 1 2), pow (.sym "x") (.rat 1 2)],
    (2 : ℂ) ^ ((1 : ℂ) / 2), (-2 : ℂ) ^ ((1 : ℂ) / 2) * (-1 : ℂ) ^ ((1 : ℂ) / 2), by decide +kernel,
    denotes_of (by decide) ?_, denotes_of (by decide) ?_, ?_⟩
  · simp only [pow, mul, call, S, String.reduceAppend]
    rule_goal [hx]
    rw [show (-2 : ℂ) * -1 = 2 by norm_num, powValue_ne (by norm_num)]
  · simp only [pow, mul, call, S, String.reduceAppend]
    rule_goal [hx, powValue_ne (show (-1 : ℂ) ≠ 0 by norm_num), powValue_ne (show (-2 : ℂ) ≠ 0 by norm_num)]
  · rw [h2, hI]
    intro h
    have hz : (2 : ℂ) ^ ((1 : ℂ) / 2) ≠ 0 := by
      rw [Complex.cpow_def_of_ne_zero (by norm_num)]; exact Complex.exp_ne_zero _
    have : (2 : ℂ) ^ ((1 : ℂ) / 2) * 1 = (2 : ℂ) ^ ((1 : ℂ) / 2) * (-1) := by
      rw [mul_one]
      nth_rewrite 1 [h]
      linear_combination (2 : ℂ) ^ ((1 : ℂ) / 2) * Complex.I_mul_I
    have := mul_left_cancel₀ hz this
    norm_num at this

/-- C93. `(-2)^(1/3) (-3)^(1/3)` evaluates to `6^(1/3)`. -/
theorem C93_wrong_product_of_roots : ChangesValue "System`Times" rootsRule := by
  refine ⟨fun _ => none, mul [pow (.int (-2)) (.rat 1 3), pow (.int (-3)) (.rat 1 3)], pow (.int 6) (.rat 1 3),
    (-2 : ℂ) ^ ((1 : ℂ) / 3) * (-3 : ℂ) ^ ((1 : ℂ) / 3), (6 : ℂ) ^ ((1 : ℂ) / 3), by decide +kernel,
    denotes_of (by decide) ?_, denotes_of (by decide) ?_, ?_⟩
  · simp only [pow, mul, call, S, String.reduceAppend]
    rule_goal [powValue_ne (show (-3 : ℂ) ≠ 0 by norm_num), powValue_ne (show (-2 : ℂ) ≠ 0 by norm_num)]
  · simp only [pow, mul, call, S, String.reduceAppend]
    rule_goal [powValue_ne (show (6 : ℂ) ≠ 0 by norm_num)]
  · have h2 := neg_cpow (c := 2) (by norm_num) ((1 : ℂ) / 3)
    have h3 := neg_cpow (c := 3) (by norm_num) ((1 : ℂ) / 3)
    have h6 : (6 : ℂ) ^ ((1 : ℂ) / 3) = (2 : ℂ) ^ ((1 : ℂ) / 3) * (3 : ℂ) ^ ((1 : ℂ) / 3) := by
      have := Complex.mul_cpow_ofReal_nonneg (a := 2) (b := 3) (by norm_num) (by norm_num) ((1 : ℂ) / 3)
      push_cast at this
      rw [← this]; norm_num
    push_cast at h2 h3
    rw [h2, h3, h6]
    intro h
    have hz : (2 : ℂ) ^ ((1 : ℂ) / 3) * (3 : ℂ) ^ ((1 : ℂ) / 3) ≠ 0 := by
      rw [Complex.cpow_def_of_ne_zero (by norm_num), Complex.cpow_def_of_ne_zero (by norm_num)]
      exact mul_ne_zero (Complex.exp_ne_zero _) (Complex.exp_ne_zero _)
    refine neg_one_two_thirds (mul_left_cancel₀ hz ?_)
    rw [mul_one]
    linear_combination h

/-- C93. `E^(Log[x] + y + z)` evaluates to `x E^(y^z)`, the power with three arguments. -/
theorem C93_wrong_exp_log : ChangesValue "System`Power" expLogRule := by
  let val : String → Option ℂ := fun s => some (if s = "z" then 2 else 1)
  have hS := stdInterp_standard val
  have hx : (stdInterp val).meaning.val (.sym "x") = some 1 := stdInterp_val (by decide) (by decide)
  have hy : (stdInterp val).meaning.val (.sym "y") = some 1 := stdInterp_val (by decide) (by decide)
  have hz : (stdInterp val).meaning.val (.sym "z") = some 2 := stdInterp_val (by decide) (by decide)
  have he : Complex.exp 1 ≠ 0 := Complex.exp_ne_zero _
  refine ⟨val, pow e (add [call "Log" [.sym "x"], .sym "y", .sym "z"]), mul [.sym "x", call "Power" [e, .sym "y", .sym "z"]],
    Complex.exp 1 ^ (3 : ℂ), Complex.exp 1, by decide +kernel, denotes_of (by decide) ?_, denotes_of (by decide) ?_, ?_⟩
  · simp only [pow, add, e, call, S, String.reduceAppend]
    rule_goal [hS.val_e, hS.op_log, hx, hy, hz, one_ne_zero, Complex.log_one]
    rw [powValue_ne he]
    norm_num
  · simp only [pow, mul, e, call, S, String.reduceAppend]
    have : (stdInterp val).meaning.op "System`Power" [some (Complex.exp 1), some 1, some 2] = some (Complex.exp 1) := by
      rw [meaning_op]
      simp only [allSome, Option.map_some, Option.bind_some, arith_power, List.foldr_cons, List.foldr_nil, powValue_one]
      rw [powValue_ne one_ne_zero]
      simp [powValue_one]
    rule_goal [hS.val_e, hx, hy, hz, this, one_mul]
  · rw [show Complex.exp 1 ^ (3 : ℂ) = Complex.exp 3 by
      rw [Complex.cpow_def_of_ne_zero he, show Complex.log (Complex.exp 1) = 1 by
        have := Complex.ofReal_log (x := Real.exp 1) (Real.exp_pos 1).le
        rw [Real.log_exp] at this
        push_cast at this
        exact this.symm]
      norm_num]
    intro h
    have : Real.exp 3 = Real.exp 1 := by
      apply Complex.ofReal_injective
      push_cast
      exact h
    have := Real.exp_injective this
    norm_num at this

/-- C93. `Cot[-x + y + z]` evaluates to `-Cot[x - y z]`. -/
theorem C93_wrong_cot_of_sum : ChangesValue "System`Cot" cotSumRule := by
  let val : String → Option ℂ := fun s => some (if s = "x" then Real.pi / 4 else if s = "y" then 0 else Real.pi / 2)
  have hS := stdInterp_standard val
  have hx : (stdInterp val).meaning.val (.sym "x") = some (Real.pi / 4 : ℂ) := stdInterp_val (by decide) (by decide)
  have hy : (stdInterp val).meaning.val (.sym "y") = some 0 := stdInterp_val (by decide) (by decide)
  have hz : (stdInterp val).meaning.val (.sym "z") = some (Real.pi / 2 : ℂ) := stdInterp_val (by decide) (by decide)
  have hq : ((Real.sqrt 2 : ℝ) : ℂ)⁻¹ ≠ 0 := inv_ne_zero sqrt_two_ne
  refine ⟨val, call "Cot" [add [neg (.sym "x"), .sym "y", .sym "z"]], neg (call "Cot" [add [.sym "x", mul [.int (-1), .sym "y", .sym "z"]]]),
    1, -1, by decide +kernel, denotes_of (by decide) ?_, denotes_of (by decide) ?_, by norm_num⟩
  · simp only [neg, mul, add, call, S, String.reduceAppend]
    rule_goal [hS.op_cot, hx, hy, hz]
    rw [show (-1 : ℂ) * (Real.pi / 4) + (0 + Real.pi / 2) = Real.pi / 4 by ring, sin_quarter, cos_quarter, if_neg hq, div_self hq]
  · simp only [neg, mul, add, call, S, String.reduceAppend]
    rule_goal [hS.op_cot, hx, hy, hz]
    rw [show (Real.pi / 4 : ℂ) + -1 * (0 * (Real.pi / 2)) = Real.pi / 4 by ring, sin_quarter, cos_quarter, if_neg hq, div_self hq]
    rule_goal []

/-- C93. `Log[E^(5 I)]` evaluates to `5 I`, which is not the principal value. -/
theorem C93_wrong_log_exp : ChangesValue "System`Log" logExpRule := by
  have hS := stdInterp_standard (fun _ => none)
  have hI : (stdInterp fun _ => none).meaning.val (.cplx (.int 0) (.int 5)) = some (5 * Complex.I) := by
    rw [Meaning.val, argVals_int, argVals_int, List.cons_append, List.nil_append, complex_two]
    simp [mul_comm]
  have he : Complex.exp 1 ≠ 0 := Complex.exp_ne_zero _
  have h1 : Complex.exp 1 ^ (5 * Complex.I) = Complex.exp (5 * Complex.I) := by
    rw [Complex.cpow_def_of_ne_zero he, show Complex.log (Complex.exp 1) = 1 by
      have := Complex.ofReal_log (x := Real.exp 1) (Real.exp_pos 1).le
      rw [Real.log_exp] at this
      push_cast at this
      exact this.symm]
    norm_num
  refine ⟨fun _ => none, call "Log" [pow e (.cplx (.int 0) (.int 5))], .cplx (.int 0) (.int 5), Complex.log (Complex.exp (5 * Complex.I)), 5 * Complex.I,
    by decide +kernel, denotes_of (by decide) ?_, denotes_of (by decide) hI, ?_⟩
  · simp only [pow, e, call, S, String.reduceAppend]
    rule_goal [hS.val_e, hS.op_log, hI, powValue_ne he, h1, Complex.exp_ne_zero]
  · intro h
    have := Complex.log_im_le_pi (Complex.exp (5 * Complex.I))
    rw [h] at this
    simp at this
    linarith [Real.pi_le_four]

/-- C93. `Log[1/2]` evaluates to `-Log[a]` with a new symbol. -/
theorem C93_wrong_log_fraction : ChangesValue "System`Log" logFractionRule := by
  have hS := stdInterp_standard (fun _ => some 1)
  have ha : (stdInterp fun _ => some 1).meaning.val (.sym "Private`a") = some 1 := stdInterp_val (by decide) (by decide)
  refine ⟨fun _ => some 1, call "Log" [.rat 1 2], neg (call "Log" [.sym "Private`a"]), Complex.log (1 / 2), -1 * 0, by decide +kernel,
    denotes_of (by decide) ?_, denotes_of (by decide) ?_, ?_⟩
  · simp only [call, S, String.reduceAppend]
    rule_goal [hS.op_log]
    rw [if_neg (by norm_num)]
  · simp only [neg, mul, call, S, String.reduceAppend]
    rule_goal [hS.op_log, ha, one_ne_zero, Complex.log_one]
  · intro h
    have h2 := congrArg Complex.exp h
    rw [Complex.exp_log (by norm_num)] at h2
    norm_num at h2

section
variable {V : Interp}

theorem denotes_call {s : String} {args : List Ex} {v : ℂ} : V.Denotes (.expr (.sym s :: args)) v ↔ s ≠ "System`Sequence" ∧ V.meaning.op s (V.meaning.vals args) = some v ∨
    s = "System`Sequence" ∧ V.meaning.vals args = [some v] := by
  unfold Interp.Denotes
  by_cases h : s = "System`Sequence"
  · subst h
    have := Meaning.argVals_seq (M := V.meaning) (as := args)
    simp only [S, String.reduceAppend] at this
    rw [this]; simp
  · rw [Meaning.argVals_one _ (by simp [hasHead, h]), Meaning.val_app]; simp [h]

/-- `(r z)^w = r^w z^w` for a positive number `r`. -/
theorem powValue_pos_mul {r : ℝ} (hr : 0 < r) {z w v : ℂ} (h : powValue (r * z) w = some v) : ∃ c d, powValue r w = some c ∧ powValue z w = some d ∧ v = c * d := by
  have hr' : (r : ℂ) ≠ 0 := by exact_mod_cast hr.ne'
  rcases (powValue_iff _ _ _).1 h with ⟨h1, h2, rfl⟩ | ⟨h1, rfl⟩
  · have hz : z = 0 := (mul_eq_zero.1 h1).resolve_left hr'
    subst hz
    exact ⟨_, _, powValue_ne hr' w, powValue_zero h2, by simp⟩
  · have hz : z ≠ 0 := fun hz => h1 (by simp [hz])
    refine ⟨_, _, powValue_ne hr' w, powValue_ne hz w, ?_⟩
    rw [Complex.cpow_def_of_ne_zero h1, Complex.cpow_def_of_ne_zero hr', Complex.cpow_def_of_ne_zero hz, ← Complex.exp_add, ← add_mul]
    rw [Complex.log_ofReal_mul hr hz, Complex.ofReal_log hr.le]

end

/-- C93. The rule for a power of a power is right for an integer exponent. -/
theorem C93_nested_power_integer (V : Interp) (a b : Ex) (k : Int) (v : ℂ) (ha : hasHead "System`Sequence" a = false) (hb : hasHead "System`Sequence" b = false)
    (h : V.Denotes (pow (pow a b) (.int k)) v) : V.Denotes (pow a (mul [b, .int k])) v := by
  refine denotes_of (by simp [pow, call, hasHead, S]) ?_
  simp only [pow, mul, call, S, String.reduceAppend] at h ⊢
  rcases denotes_call.1 h with ⟨_, h⟩ | ⟨h, _⟩
  · rule_hyp [ha, hb] at h
    obtain ⟨p, ⟨x, hx, y, hy, h1⟩, h2⟩ := h
    rule_goal [ha, hb, hx, hy]
    exact powValue_mul_int h1 h2
  · simp at h

/-- C93. The rule for a power of a product is right for a positive number. -/
theorem C93_number_factor_positive (V : Interp) (n : Int) (hn : 0 < n) (x p : Ex) (v : ℂ) (hx : hasHead "System`Sequence" x = false) (hp : hasHead "System`Sequence" p = false)
    (h : V.Denotes (pow (mul [.int n, x]) p) v) : V.Denotes (mul [pow (.int n) p, pow (mul [x]) p]) v := by
  refine denotes_of (by simp [mul, call, hasHead, S]) ?_
  simp only [pow, mul, call, S, String.reduceAppend] at h ⊢
  rcases denotes_call.1 h with ⟨_, h⟩ | ⟨h, _⟩
  · rule_hyp [hx, hp] at h
    obtain ⟨p', ⟨_, ⟨y, hy, rfl⟩, rfl⟩, w, hw, h1⟩ := h
    have hn' : (0 : ℝ) < (n : ℝ) := by exact_mod_cast hn
    rw [show ((n : Int) : ℂ) = ((n : ℝ) : ℂ) by simp] at h1
    obtain ⟨c, d, h2, h3, rfl⟩ := powValue_pos_mul hn' h1
    rw [show (((n : ℝ) : ℂ)) = ((n : Int) : ℂ) by simp] at h2
    rule_goal [hx, hp, hy, hw, h2, h3]
  · simp at h

/-- C93. The rule for the product of two roots is right if the first number is positive. -/
theorem C93_product_of_roots_positive (V : Interp) (a b : Int) (ha : 0 < a) (c : Ex) (hc : hasHead "System`Sequence" c = false) (v : ℂ)
    (h : V.Denotes (pow (mul [.int a, .int b]) c) v) : V.Denotes (mul [pow (.int a) c, pow (.int b) c]) v := by
  have := C93_number_factor_positive V a ha (.int b) c v rfl hc h
  unfold Interp.Denotes at this ⊢
  simp only [pow, mul, call, S, String.reduceAppend] at this ⊢
  rw [← this]
  rule_goal [hc]

/-- C93. The rule for an exponential of a sum is right for one other term. -/
theorem C93_exp_log_one_term (V : Interp) (hS : V.Standard) (a y : Ex) (ha : hasHead "System`Sequence" a = false) (hy : hasHead "System`Sequence" y = false) (v : ℂ)
    (h : V.Denotes (pow e (add [call "Log" [a], y])) v) : V.Denotes (mul [a, pow e y]) v := by
  refine denotes_of (by simp [mul, call, hasHead, S]) ?_
  simp only [pow, add, mul, e, call, S, String.reduceAppend] at h ⊢
  rcases denotes_call.1 h with ⟨_, h⟩ | ⟨h, _⟩
  · rule_hyp [ha, hy, hS.val_e, hS.op_log] at h
    obtain ⟨p, ⟨l, ⟨x, hx, hx0, rfl⟩, _, ⟨w, hw, rfl⟩, rfl⟩, h⟩ := h
    rule_goal [ha, hy, hS.val_e, hx, hw, powValue_ne (Complex.exp_ne_zero 1)]
    rw [powValue_ne (Complex.exp_ne_zero 1)] at h
    cases h
    rw [Complex.cpow_add _ _ (Complex.exp_ne_zero 1)]
    rw [show Complex.exp 1 ^ Complex.log x = x by
      rw [Complex.cpow_def_of_ne_zero (Complex.exp_ne_zero 1), show Complex.log (Complex.exp 1) = 1 by
        have := Complex.ofReal_log (x := Real.exp 1) (Real.exp_pos 1).le
        rw [Real.log_exp] at this
        push_cast at this
        exact this.symm, one_mul, Complex.exp_log hx0]]
  · simp at h

/-- C93. The rule for a logarithm of an exponential is right for an exponent between `-Pi` and `Pi` in the imaginary part, so for every real one. -/
theorem C93_log_exp_strip (V : Interp) (hS : V.Standard) (p : Ex) (hp : hasHead "System`Sequence" p = false) (w v : ℂ) (hw : V.Denotes p w) (h1 : -Real.pi < w.im) (h2 : w.im ≤ Real.pi)
    (h : V.Denotes (call "Log" [pow e p]) v) : v = w := by
  unfold Interp.Denotes at hw
  rw [Meaning.argVals_one _ hp] at hw
  simp only [List.cons.injEq, and_true] at hw
  simp only [pow, e, call, S, String.reduceAppend] at h
  rcases denotes_call.1 h with ⟨_, h⟩ | ⟨h, _⟩
  · rule_hyp [hp, hw, hS.val_e, hS.op_log] at h
    obtain ⟨x, h3, h4, rfl⟩ := h
    rw [powValue_ne (Complex.exp_ne_zero 1)] at h3
    cases h3
    rw [Complex.cpow_def_of_ne_zero (Complex.exp_ne_zero 1), show Complex.log (Complex.exp 1) = 1 by
      have := Complex.ofReal_log (x := Real.exp 1) (Real.exp_pos 1).le
      rw [Real.log_exp] at this
      push_cast at this
      exact this.symm, one_mul, Complex.log_exp h1 h2]
  · simp at h

theorem denotes_ex {V : Interp} {e : Ex} (h : hasHead "System`Sequence" e = false) (hv : ∃ v, V.meaning.val e = some v) : ∃ v, V.Denotes e v :=
  hv.imp fun _ => denotes_of h

/-- `(x^(1/2))^3` has a value for `x = -1`. -/
example : ∃ v, (stdInterp fun _ => some (-1)).Denotes (pow (pow (.sym "x") (.rat 1 2)) (.int 3)) v := by
  have hx : (stdInterp fun _ => some (-1)).meaning.val (.sym "x") = some (-1) := stdInterp_val (by decide) (by decide)
  have hz : ((-1 : ℂ) ^ ((1 : ℂ) / 2)) ≠ 0 := by rw [neg_one_cpow]; exact Complex.exp_ne_zero _
  refine denotes_ex (by decide) ?_
  simp only [pow, call, S, String.reduceAppend]
  rule_goal [hx, powValue_ne (show (-1 : ℂ) ≠ 0 by norm_num), powValue_ne hz, exists_eq']

/-- `(2 x)^(1/2)` has a value for `x = -1`. -/
example : ∃ v, (stdInterp fun _ => some (-1)).Denotes (pow (mul [.int 2, .sym "x"]) (.rat 1 2)) v := by
  have hx : (stdInterp fun _ => some (-1)).meaning.val (.sym "x") = some (-1) := stdInterp_val (by decide) (by decide)
  refine denotes_ex (by decide) ?_
  simp only [pow, mul, call, S, String.reduceAppend]
  rule_goal [hx]
  rw [powValue_ne (by norm_num)]
  exact ⟨_, rfl⟩

/-- `E^(Log[x] + y)` and `Log[E^x]` have values. -/
example : (∃ v, (stdInterp fun _ => some 1).Denotes (pow e (add [call "Log" [.sym "x"], .sym "y"])) v) ∧
    ∃ v, (stdInterp fun _ => some 1).Denotes (call "Log" [pow e (.sym "x")]) v := by
  have hS := stdInterp_standard (fun _ => some 1)
  have hx : (stdInterp fun _ => some 1).meaning.val (.sym "x") = some 1 := stdInterp_val (by decide) (by decide)
  have hy : (stdInterp fun _ => some 1).meaning.val (.sym "y") = some 1 := stdInterp_val (by decide) (by decide)
  refine ⟨denotes_ex (by decide) ?_, denotes_ex (by decide) ?_⟩
  · simp only [pow, add, e, call, S, String.reduceAppend]
    rule_goal [hS.val_e, hS.op_log, hx, hy, one_ne_zero, powValue_ne (Complex.exp_ne_zero 1), exists_eq']
  · simp only [pow, e, call, S, String.reduceAppend]
    rule_goal [hS.val_e, hS.op_log, hx, powValue_one, Complex.exp_ne_zero, exists_eq']

end Expreduce
