import Verif.Proofs.Arith2
import Mathlib.Data.Complex.Basic

/-!
# C13–C16: numbers

`value ρ iu e` (`Verif/Spec/Arith.lean`) is the mathematical value of `e` in any field of characteristic 0 with a square
root `iu` of `-1`, for an arbitrary assignment `ρ` of values to non-numeric subexpressions.
-/

namespace Expreduce
open Ex

section
variable {K : Type _} [Field K] [CharZero K]

/-- C13. `Rational[n, d]` with `d ≠ 0` evaluates to a number in normal form (an integer, or lowest terms with denominator
`> 1`) with value exactly `n / d`. -/
theorem C13_normal_form (ρ : Ex → K) (iu : K) (n d : Int) (hd : d ≠ 0) :
    CanonReal (evalRational n d) ∧ value ρ iu (evalRational n d) = (n : K) / (d : K) :=
  ⟨evalRational_canon n d hd, value_evalRational ρ iu n d hd⟩

/-- C13. The normal form is an integer exactly if the denominator divides the numerator. -/
theorem C13_integer_iff (n d : Int) (hd : d ≠ 0) : (∃ k, evalRational n d = .int k) ↔ d ∣ n := by
  have hv : value (K := Rat) (fun _ => 0) 0 (evalRational n d) = (n : Rat) / d := value_evalRational _ _ n d hd
  have hdq : (d : Rat) ≠ 0 := by exact_mod_cast hd
  constructor
  · rintro ⟨k, hk⟩
    rw [hk] at hv
    simp only [value] at hv
    rw [eq_div_iff hdq] at hv
    exact ⟨k, by rw [mul_comm]; exact_mod_cast hv.symm⟩
  · rintro ⟨k, rfl⟩
    refine ⟨k, ?_⟩
    apply CanonReal.ext (evalRational_canon _ _ hd) (b := .int k) trivial
    have h := evalRational_canon (d * k) d hd
    rw [ExactReal.value_eq _ _ h.exact] at hv
    simp only [Rat.cast_id] at hv
    rw [hv]; push_cast; simp only [exactVal]; field_simp

/-- C13. Normal forms are unique: equal fractions evaluate to the same expression. -/
theorem C13_unique (n d n' d' : Int) (hd : d ≠ 0) (hd' : d' ≠ 0) :
    evalRational n d = evalRational n' d' ↔ n * d' = n' * d := by
  have hv : value (K := Rat) (fun _ => 0) 0 (evalRational n d) = (n : Rat) / d := value_evalRational _ _ n d hd
  have hv' : value (K := Rat) (fun _ => 0) 0 (evalRational n' d') = (n' : Rat) / d' := value_evalRational _ _ n' d' hd'
  have hdq : (d : Rat) ≠ 0 := by exact_mod_cast hd
  have hdq' : (d' : Rat) ≠ 0 := by exact_mod_cast hd'
  have hval : (evalRational n d = evalRational n' d') ↔ (n : Rat) / d = n' / d' := by
    constructor
    · intro h; rw [← hv, ← hv', h]
    · intro h
      have c := evalRational_canon n d hd
      have c' := evalRational_canon n' d' hd'
      apply c.ext c'
      rw [ExactReal.value_eq _ _ c.exact] at hv
      rw [ExactReal.value_eq _ _ c'.exact] at hv'
      simp only [Rat.cast_id] at hv hv'
      rw [hv, hv', h]
  rw [hval, div_eq_div_iff hdq hdq']
  constructor <;> intro h <;> exact_mod_cast h

/-- C13. Zero denominators: `Rational[0,0]` is `Indeterminate`, `Rational[n,0]` is `ComplexInfinity`. -/
theorem C13_zero_denominator (n : Int) :
    evalRational n 0 = if n = 0 then S "Indeterminate" else S "ComplexInfinity" := by
  by_cases h : n = 0 <;> simp [evalRational, h]

/-- C13. Evaluating a number again changes nothing; complex numbers with exact zero imaginary part become real. -/
theorem C13_idempotent (e : Ex) (h : ExactNum e) :
    CanonNum (evalNumber e) ∧ evalNumber (evalNumber e) = evalNumber e :=
  ⟨h.evalNumber_canon, h.evalNumber_canon.evalNumber_id⟩

/-- C13. Two exact numbers (integer, rational or complex) have the same evaluated form if and only if they are mathematically equal. -/
theorem C13_same_value_iff (ρ : Ex → K) (iu : K) (hi : iu * iu = -1) (a b : Ex) (ha : ExactNum a) (hb : ExactNum b) :
    evalNumber a = evalNumber b ↔ value ρ iu a = value ρ iu b := by
  constructor
  · intro h
    rw [← ha.value_evalNumber ρ iu, ← hb.value_evalNumber ρ iu, h]
  · intro h
    apply CanonNum.ext ρ iu hi ha.evalNumber_canon hb.evalNumber_canon
    rw [ha.value_evalNumber, hb.value_evalNumber, h]

/-- Hypotheses of C13 are met: 6/(-4) normalises to -3/2, and 1/2 + 0 I to 1/2. -/
example : evalRational 6 (-4) = .rat (-3) 2 ∧ evalComplex (.rat 2 4) (.rat 0 3) = .rat 1 2 := by decide

/-- C14. Evaluating `Plus` on any nonempty list of exact numbers gives an exact number whose value is the sum. -/
theorem C14_plus_exact (toN : Ex → Ex) (ρ : Ex → K) (iu : K) (hi : iu * iu = -1) (nums : List Ex) (hne : nums ≠ [])
    (hn : ∀ a ∈ nums, ExactNum a) :
    ExactNum (plusEval toN nums) ∧ value ρ iu (plusEval toN nums) = (nums.map (value ρ iu)).sum := by
  obtain ⟨v, hv, hv1, hv2⟩ := computeNumericPart_ok ρ iu hi .add nums [] hn hne (by simp)
  rw [foldK_add] at hv2
  rw [List.append_nil] at hv
  have : plusEval toN nums = v := by
    unfold plusEval; rw [if_neg hne, hv]; simp
  rw [this]; exact ⟨hv1, hv2⟩

/-- C14. Evaluating `Times` on any nonempty list of exact numbers gives an exact number whose value is the product. -/
theorem C14_times_exact (toN : Ex → Ex) (ρ : Ex → K) (iu : K) (hi : iu * iu = -1) (nums : List Ex) (hne : nums ≠ [])
    (hn : ∀ a ∈ nums, ExactNum a) :
    ExactNum (timesEval toN nums) ∧ value ρ iu (timesEval toN nums) = (nums.map (value ρ iu)).prod := by
  obtain ⟨v, hv, hv1, hv2⟩ := computeNumericPart_ok ρ iu hi .mul nums [] hn hne (by simp)
  rw [foldK_mul] at hv2
  rw [List.append_nil] at hv
  have : timesEval toN nums = v := by
    unfold timesEval; rw [if_neg hne, hv]; simp
  rw [this]; exact ⟨hv1, hv2⟩

/-- C14. The normalised sum does not depend on the order of the addends, nor on anything but its value. -/
theorem C14_plus_order_independent (toN : Ex → Ex) (nums nums' : List Ex) (hp : nums.Perm nums') (hne : nums ≠ [])
    (iu : K) (hi : iu * iu = -1)
    (hn : ∀ a ∈ nums, ExactNum a) : evalNumber (plusEval toN nums) = evalNumber (plusEval toN nums') := by
  have hne' : nums' ≠ [] := fun h => hne (by rw [h] at hp; exact hp.eq_nil)
  have h1 := C14_plus_exact toN (fun _ => (0 : K)) iu hi nums hne hn
  have h2 := C14_plus_exact toN (fun _ => (0 : K)) iu hi nums' hne' (fun a ha => hn a (hp.mem_iff.2 ha))
  rw [C13_same_value_iff (fun _ => (0 : K)) iu hi _ _ h1.1 h2.1, h1.2, h2.2]
  exact (hp.map _).sum_eq

/-- C14. The normalised product does not depend on the order of the factors. -/
theorem C14_times_order_independent (toN : Ex → Ex) (nums nums' : List Ex) (hp : nums.Perm nums') (hne : nums ≠ [])
    (iu : K) (hi : iu * iu = -1)
    (hn : ∀ a ∈ nums, ExactNum a) : evalNumber (timesEval toN nums) = evalNumber (timesEval toN nums') := by
  have hne' : nums' ≠ [] := fun h => hne (by rw [h] at hp; exact hp.eq_nil)
  have h1 := C14_times_exact toN (fun _ => (0 : K)) iu hi nums hne hn
  have h2 := C14_times_exact toN (fun _ => (0 : K)) iu hi nums' hne' (fun a ha => hn a (hp.mem_iff.2 ha))
  rw [C13_same_value_iff (fun _ => (0 : K)) iu hi _ _ h1.1 h2.1, h1.2, h2.2]
  exact (hp.map _).prod_eq

/-- C14. With non-numeric factors the numbers in front are multiplied exactly and everything from the first non-numeric
factor on is kept unchanged and in order (unless the numeric factor is 0 or 1, or `-1` meets a single `Plus`). -/
theorem C14_times_keeps_rest (toN : Ex → Ex) (ρ : Ex → K) (iu : K) (hi : iu * iu = -1) (nums rest : List Ex) (x : Ex)
    (hne : nums ≠ []) (hn : ∀ a ∈ nums, ExactNum a) (hx : x.numberQ = false)
    (h01 : (nums.map (value ρ iu)).prod ≠ 0 ∧ (nums.map (value ρ iu)).prod ≠ 1 ∧ (nums.map (value ρ iu)).prod ≠ -1) :
    ∃ v, ExactNum v ∧ value ρ iu v = (nums.map (value ρ iu)).prod ∧
      timesEval toN (nums ++ x :: rest) = .expr (S "Times" :: v :: x :: rest) := by
  obtain ⟨v, hv, hv1, hv2⟩ := computeNumericPart_ok ρ iu hi .mul nums (x :: rest) hn hne (by simpa using hx)
  rw [foldK_mul] at hv2
  refine ⟨v, hv1, hv2, ?_⟩
  rw [← hv2] at h01
  have hd : List.drop (1 + nums.length - 1) (nums ++ x :: rest) = x :: rest := by
    rw [Nat.add_sub_cancel_left]; exact List.drop_left
  have h0 : v ≠ .int 0 := by rintro rfl; exact h01.1 (by simp [value])
  have h1 : v ≠ .int 1 := by rintro rfl; exact h01.2.1 (by simp [value])
  have h2 : v ≠ .int (-1) := by rintro rfl; exact h01.2.2 (by simp [value])
  unfold timesEval
  rw [if_neg (by simp), hv]
  simp only [List.cons_ne_nil, reduceCtorEq, if_false, Option.getD_some, hd]
  have hzd : decide (some v = some (.int 0)) = false := by simpa using h0
  rw [hzd, if_neg h1, hv1.not_forces]
  simp only [Bool.false_and, Bool.false_eq_true, if_false, List.singleton_append]
  unfold timesFinish
  split
  · rename_i heq; simp at heq
  · rename_i heq; simp at heq; exact absurd heq.1 h2
  · simp

/-- The complex numbers are such a field. -/
example : Complex.I * Complex.I = -1 := Complex.I_mul_I

/-- Hypotheses of C14 are met: 1/2, 2/3 and 3+4I. -/
example : ∀ a ∈ [Ex.rat 1 2, .rat 2 3, .cplx (.int 3) (.int 4)], ExactNum a := by
  simp [ExactNum, ExactReal]

/-- C14 (test): the sum is left unreduced by this step (4/4) and normalised by the evaluator (to 1). -/
example : plusEval id [.rat 1 2, .rat 1 2] = .rat 4 4 ∧ evalNumber (plusEval id [.rat 1 2, .rat 1 2]) = .int 1 := by
  decide

/-- C15. Evaluating `Plus` (including collection of like terms) on any arguments without machine reals yields an expression
with the same value under every assignment of values to the non-numeric subexpressions, provided no two of the terms have
different non-numeric parts with the same 64-bit fingerprint (missing: false otherwise, see `C15_wrong_on_collision`). -/
theorem C15_plus_value_partial (toN : Ex → Ex) (ρ : Ex → K) (iu : K) (hi : iu * iu = -1) (args : List Ex)
    (ha : ∀ a ∈ args, Exact a)
    (hnc : ∀ a ∈ args, ∀ b ∈ args, ∀ c d u v, splitTerm a = some (c, u) → splitTerm b = some (d, v) → hash u = hash v → u = v) :
    Exact (plusEval toN args) ∧
    value ρ iu (plusEval toN args) = value ρ iu (.expr (S "Plus" :: args)) := by
  rw [value_plus]; exact plusEval_ok ρ iu toN hi ha hnc

/-- C15. Evaluating `Times` on arguments without machine reals preserves the value under every assignment, or
answers `Indeterminate` because a numeric zero met `Infinity`, `ComplexInfinity` or `Indeterminate`. -/
theorem C15_times_value (toN : Ex → Ex) (ρ : Ex → K) (iu : K) (hi : iu * iu = -1) (args : List Ex)
    (ha : ∀ a ∈ args, Exact a) :
    (timesEval toN args = S "Indeterminate" ∧
      (∃ a ∈ args, a = S "Infinity" ∨ a = S "ComplexInfinity" ∨ a = S "Indeterminate") ∧
      value ρ iu (.expr (S "Times" :: args)) = 0) ∨
    (Exact (timesEval toN args) ∧ value ρ iu (timesEval toN args) = value ρ iu (.expr (S "Times" :: args))) := by
  rw [value_times]
  rcases timesEval_ok ρ iu toN hi ha with ⟨h1, ⟨a, ha1, ha2⟩, h3⟩ | h
  · refine Or.inl ⟨h1, ⟨a, ha1, ?_⟩, h3⟩
    simpa [isInfinite, or_assoc] using ha2
  · exact Or.inr h

/-- C15. Adjacent like terms really are merged: `c₁·x + c₂·x` with exact coefficients becomes one term whose coefficient
is the sum. -/
theorem C15_merges (ρ : Ex → K) (iu : K) (hi : iu * iu = -1) (c₁ c₂ : Ex) (x : String) (h₁ : ExactNum c₁) (h₂ : ExactNum c₂)
    (hne : value ρ iu c₁ + value ρ iu c₂ ≠ 1) :
    ∃ c, ExactNum c ∧ value ρ iu c = value ρ iu c₁ + value ρ iu c₂ ∧
      collectTerms [.expr [S "Times", c₁, .sym x], .expr [S "Times", c₂, .sym x]] = [.expr [S "Times", c, .sym x]] := by
  obtain ⟨v, hv, hv1, hv2⟩ := computeNumericPart_ok ρ iu hi .add [c₁, c₂] [] (by simp [h₁, h₂]) (by simp) (by simp)
  rw [foldK_add] at hv2
  simp at hv2
  refine ⟨v, hv1, hv2, ?_⟩
  have num : ∀ c, ExactNum c → c.numberQ = true := by
    intro c hc; cases c <;> simp_all [ExactNum, numberQ]
  have sp : ∀ c, ExactNum c → splitTerm (.expr [S "Times", c, .sym x]) = some (c, .expr [S "Times", .sym x]) := by
    intro c hc
    have hT : S "Times" = .sym "System`Times" := rfl
    rw [hT]; unfold splitTerm; simp [num c hc]
  have hv' : v ≠ .int 1 := by
    rintro rfl; apply hne; rw [← hv2]; simp [value]
  simp only [collectTerms, List.foldl, collStep, sp c₁ h₁, sp c₂ h₂, if_true, List.nil_append, List.singleton_append]
  simp only [collectedToTerm, List.append_nil] at hv ⊢
  rw [hv]
  simp [hv']
  refine ⟨rfl, rfl⟩

/-- Hypotheses of C15 are met: 2x + y + 3y. -/
example : ∀ a ∈ [Ex.expr [S "Times", .int 2, .sym "x"], .sym "y", .expr [S "Times", .int 3, .sym "y"]], Exact a := by
  intro a ha
  simp at ha
  rcases ha with rfl | rfl | rfl
  · exact Exact.timesL (by intro e he; simp at he; rcases he with rfl | rfl; exacts [.num _ trivial, .sym _])
  · exact .sym _
  · exact Exact.timesL (by intro e he; simp at he; rcases he with rfl | rfl; exacts [.num _ trivial, .sym _])

/-- ... and their fingerprints do not clash. -/
example : ∀ a ∈ [Ex.expr [S "Times", .int 2, .sym "x"], .sym "y", .expr [S "Times", .int 3, .sym "y"]],
    ∀ b ∈ [Ex.expr [S "Times", .int 2, .sym "x"], .sym "y", .expr [S "Times", .int 3, .sym "y"]],
    ∀ c d u v, splitTerm a = some (c, u) → splitTerm b = some (d, v) → hash u = hash v → u = v := by
  have hx : splitTerm (Ex.expr [S "Times", .int 2, .sym "x"]) = some (.int 2, .expr [S "Times", .sym "x"]) := by decide
  have hy : splitTerm (.sym "y") = some (.int 1, .expr [S "Times", .sym "y"]) := by decide
  have hy3 : splitTerm (Ex.expr [S "Times", .int 3, .sym "y"]) = some (.int 3, .expr [S "Times", .sym "y"]) := by decide
  have hne : hash (.expr [S "Times", .sym "x"]) ≠ hash (.expr [S "Times", .sym "y"]) := by decide +kernel
  intro a ha b hb c d u v h1 h2 h3
  simp only [List.mem_cons, List.not_mem_nil, or_false] at ha hb
  rcases ha with rfl | rfl | rfl <;> rcases hb with rfl | rfl | rfl <;>
    simp only [hx, hy, hy3, Option.some.injEq, Prod.mk.injEq] at h1 h2 <;>
    obtain ⟨-, rfl⟩ := h1 <;> obtain ⟨-, rfl⟩ := h2 <;>
    first | rfl | exact absurd h3 hne | exact absurd h3.symm hne

/-- C15 (test): y + 3y collects to 4y. -/
example : plusEval id [.sym "y", .expr [S "Times", .int 3, .sym "y"]] = .expr [S "Times", .int 4, .sym "y"] := by
  decide +kernel

/-- C15, the restriction is necessary: `x^(1/66051) + x^(66049/3)` is collected to `2 x^(1/66051)`, because the fingerprints
of the two exponents coincide; the two sides have different values under some assignment. -/
theorem C15_wrong_on_collision :
    plusEval id [.expr [S "Power", .sym "x", .rat 1 66051], .expr [S "Power", .sym "x", .rat 66049 3]] =
      .expr [S "Times", .int 2, .expr [S "Power", .sym "x", .rat 1 66051]] ∧
    ∃ ρ : Ex → Rat, ∀ iu : Rat,
      value ρ iu (.expr [S "Times", .int 2, .expr [S "Power", .sym "x", .rat 1 66051]]) ≠
      value ρ iu (.expr [S "Plus", .expr [S "Power", .sym "x", .rat 1 66051], .expr [S "Power", .sym "x", .rat 66049 3]]) := by
  refine ⟨by decide +kernel, fun e => if e = .expr [S "Power", .sym "x", .rat 1 66051] then 1 else 0, ?_⟩
  intro iu
  have h1 : S "Power" ≠ S "Plus" := by decide
  have h2 : S "Power" ≠ S "Times" := by decide
  have h3 : S "Times" ≠ S "Plus" := by decide
  simp [value, sumValue, prodValue, h1, h2, h3]

/-- C16. Integer powers are exact: whenever `b ≠ 0` or `p > 0`, `b^p` evaluates to the normalised number with value `b^p`. -/
theorem C16_power_exact (ρ : Ex → K) (iu : K) (b p : Int) (h : b ≠ 0 ∨ 0 < p) :
    CanonReal (powerIntVal b p) ∧ value ρ iu (powerIntVal b p) = (b : K) ^ p := by
  unfold powerIntVal powerIntInt
  by_cases h1 : p = 1
  · subst h1; simp [evalRationalExpr, CanonReal, value]
  rw [if_neg h1]
  by_cases h0 : p = 0
  · subst h0
    have hb : b ≠ 0 := by simpa using h
    simp [hb, evalRationalExpr, CanonReal, value]
  rw [if_neg h0]
  by_cases hp : p > 0
  · by_cases hb : b = 0
    · rw [if_pos ⟨hp, hb⟩]; subst hb
      refine ⟨trivial, ?_⟩
      simp [evalRationalExpr, value, zero_zpow p h0]
    · rw [if_neg (by tauto), if_pos hp]
      refine ⟨trivial, ?_⟩
      simp only [evalRationalExpr, value]
      push_cast
      rw [← zpow_natCast, Int.toNat_of_nonneg (by omega)]
  · have hb : b ≠ 0 := by rcases h with h | h; exact h; omega
    rw [if_neg (by tauto), if_neg hp]
    have hbK : (b : K) ≠ 0 := by exact_mod_cast hb
    have hpe : (b : K) ^ p = 1 / ((b ^ p.natAbs : Int) : K) := by
      have e : p = -(p.natAbs : Int) := by omega
      conv_lhs => rw [e, zpow_neg, zpow_natCast]
      push_cast; simp
    have hnz : b ^ p.natAbs ≠ 0 := pow_ne_zero _ hb
    simp only
    split
    · rename_i h; refine ⟨trivial, ?_⟩; rw [hpe, h]; simp [evalRationalExpr, value]
    · split
      · rename_i h; refine ⟨trivial, ?_⟩; rw [hpe, h]; simp [evalRationalExpr, value]
      · have : evalRationalExpr (.expr [S "Rational", .int 1, .int (b ^ p.natAbs)]) = evalRational 1 (b ^ p.natAbs) := rfl
        rw [this]
        refine ⟨evalRational_canon _ _ hnz, ?_⟩
        rw [value_evalRational ρ iu _ _ hnz, hpe]; simp

/-- C16. `0^0` is `Indeterminate`, and `0` to a negative power is `ComplexInfinity`. -/
theorem C16_zero_base (p : Int) (hp : p ≤ 0) :
    powerIntVal 0 p = if p = 0 then S "Indeterminate" else S "ComplexInfinity" := by
  by_cases h : p = 0
  · subst h; rfl
  · have h1 : p ≠ 1 := by omega
    have h2 : ¬ p > 0 := by omega
    have h3 : p.natAbs ≠ 0 := by omega
    simp only [powerIntVal, powerIntInt, h, h1, h2, if_false, false_and, zero_pow h3]
    rfl

/-- Hypotheses of C16 are met: (-2)^(-3) = -1/8. -/
example : powerIntVal (-2) (-3) = .rat (-1) 8 := by decide

end
end Expreduce
