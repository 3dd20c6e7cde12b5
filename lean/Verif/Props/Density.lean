import Verif.Model.Density
import Verif.Spec.Density
import Mathlib.Probability.Distributions.Gaussian.Real

/-!
# C128: the densities of `PDF`

See `Verif/Model/Density.lean` and `Verif/Spec/Density.lean`.
-/

namespace Expreduce
open Ex Dn
open scoped NNReal

namespace Dn
variable {σ : String → ℝ} {a b c d : Ex} {v w t u : ℝ}

theorem m_times2 (ha : Means σ a v) (hb : Means σ b w) : Means σ (times [a, b]) (v * w) := .times ha (.times1 hb)
theorem m_over (ha : Means σ a v) (hb : Means σ b w) (h : w ≠ 0) : Means σ (over a b) (v / w) := by
  have := m_times2 ha (Means.power (-1) hb (.inl h))
  rwa [zpow_neg_one, ← div_eq_mul_inv] at this
theorem m_neg (ha : Means σ a v) : Means σ (neg a) (-v) := by
  have h := m_times2 (Means.int (σ := σ) (-1)) ha
  have e : -v = ((-1 : ℤ) : ℝ) * v := by push_cast; ring
  rw [e]; exact h
theorem m_sq (ha : Means σ a v) : Means σ (power a (.int 2)) (v ^ 2) := by
  have := Means.power 2 ha (.inr (by norm_num))
  exact_mod_cast this
theorem m_root : Means σ (sqrtOf (times [.int 2, S "Pi"])) (Real.sqrt (2 * Real.pi)) := by
  have := m_times2 (Means.int (σ := σ) 2) (Means.pi (σ := σ))
  push_cast at this
  exact .sqrt this (by have := Real.pi_pos; positivity)
theorem m_expo (ha : Means σ a v) (hb : Means σ b w) (hc : Means σ c t) (h : w ≠ 0) :
    Means σ (over (power (plus [neg a, c]) (.int 2)) (times [.int 2, power b (.int 2)])) ((-v + t) ^ 2 / (2 * w ^ 2)) := by
  have h2 := m_times2 (Means.int (σ := σ) 2) (m_sq hb)
  push_cast at h2
  exact m_over (m_sq (.plus2 (m_neg ha) hc)) h2 (by positivity)

/-- The value of the normal density. -/
theorem m_normal {s : ℝ} {m x : ℝ} (ha : Means σ a m) (hb : Means σ b s) (hc : Means σ c x) (h : s ≠ 0) :
    Means σ (normalPdf a b c) (Real.exp (-((-m + x) ^ 2 / (2 * s ^ 2))) / (Real.sqrt (2 * Real.pi) * s)) := by
  refine m_over (.exp (m_neg (m_expo ha hb hc h))) (m_times2 m_root hb) ?_
  have := Real.pi_pos
  have : Real.sqrt (2 * Real.pi) ≠ 0 := by positivity
  exact mul_ne_zero this h

theorem gauss_eq {m s x : ℝ} (h : 0 < s) : Real.exp (-((-m + x) ^ 2 / (2 * s ^ 2))) / (Real.sqrt (2 * Real.pi) * s) = ProbabilityTheory.gaussianPDFReal m (Real.toNNReal (s ^ 2)) x := by
  unfold ProbabilityTheory.gaussianPDFReal
  have e1 : Real.sqrt (2 * Real.pi * s ^ 2) = Real.sqrt (2 * Real.pi) * s := by
    rw [Real.sqrt_mul (by have := Real.pi_pos; positivity), Real.sqrt_sq h.le]
  have e2 : -((-m + x) ^ 2 / (2 * s ^ 2)) = -(x - m) ^ 2 / (2 * s ^ 2) := by ring
  rw [Real.coe_toNNReal _ (by positivity), e1, e2]
  ring

end Dn

/-- C128. For `sigma > 0`, `PDF[NormalDistribution[mu, sigma], x]` has as its value the density of the normal distribution with mean `mu` and variance `sigma^2`: it is positive, it
integrates to 1, and the mean of the distribution is `mu`. -/
theorem C128_normal_partial (m s : ℝ) (hs : 0 < s) : ∃ f : ℝ → ℝ,
    (∀ (σ : String → ℝ) (mu sigma x : Ex) (t : ℝ), Means σ mu m → Means σ sigma s → Means σ x t → Means σ (normalPdf mu sigma x) (f t)) ∧
    (∀ t, 0 < f t) ∧ (∫ t, f t) = 1 ∧ (∫ t, f t * t) = m ∧ ∀ t, f t = Real.exp (-(t - m) ^ 2 / (2 * s ^ 2)) / (s * Real.sqrt (2 * Real.pi)) := by
  have hv : (Real.toNNReal (s ^ 2)) ≠ 0 := (Real.toNNReal_pos.2 (by positivity)).ne'
  refine ⟨ProbabilityTheory.gaussianPDFReal m (Real.toNNReal (s ^ 2)), ?_, ?_, ProbabilityTheory.integral_gaussianPDFReal_eq_one m hv, ?_, ?_⟩
  · intro σ mu sigma x t h1 h2 h3
    rw [← gauss_eq hs]
    exact m_normal h1 h2 h3 hs.ne'
  · intro t; exact ProbabilityTheory.gaussianPDFReal_pos m _ t hv
  · have h1 := ProbabilityTheory.integral_id_gaussianReal (μ := m) (v := (Real.toNNReal (s ^ 2)))
    rw [ProbabilityTheory.integral_gaussianReal_eq_integral_smul hv] at h1
    simpa using h1
  · intro t
    rw [← gauss_eq hs, mul_comm s]
    congr 2; ring

/-- C128. For `sigma > 0` and `x > 0`, `PDF[LogNormalDistribution[mu, sigma], x]` is the normal density of `Log[x]` divided by `x`, the density of a variable whose logarithm is normal; for other `x` it is 0. -/
theorem C128_logNormal_partial (σ : String → ℝ) (mu sigma x : Ex) (m s t : ℝ) (hs : 0 < s) (h1 : Means σ mu m) (h2 : Means σ sigma s) (h3 : Means σ x t) :
    Means σ (logNormalPdf mu sigma x) (if t > 0 then Real.exp (-(Real.log t - m) ^ 2 / (2 * s ^ 2)) / (s * Real.sqrt (2 * Real.pi)) / t else 0) := by
  have h0 : Means σ (.int 0) 0 := by have := Means.int (σ := σ) 0; push_cast at this; exact this
  have key : t > 0 → Means σ (logNormalBody mu sigma x) (Real.exp (-(Real.log t - m) ^ 2 / (2 * s ^ 2)) / (s * Real.sqrt (2 * Real.pi)) / t) := by
    intro ht
    have hp : Real.sqrt (2 * Real.pi) ≠ 0 := by have := Real.pi_pos; positivity
    have hd := Means.times (.exp (m_expo h1 h2 (.log h3 ht) hs.ne')) (.times m_root (m_times2 h2 h3))
    have h1' := m_over (Means.int (σ := σ) 1) hd (by
      have := Real.exp_pos ((-m + Real.log t) ^ 2 / (2 * s ^ 2))
      have := hs.ne'; have := ht.ne'
      positivity)
    refine Eq.subst (motive := fun r => Means σ (logNormalBody mu sigma x) r) ?_ h1'
    symm
    have e : -(Real.log t - m) ^ 2 / (2 * s ^ 2) = -((-m + Real.log t) ^ 2 / (2 * s ^ 2)) := by ring
    rw [e, Real.exp_neg]
    have := (Real.exp_pos ((-m + Real.log t) ^ 2 / (2 * s ^ 2))).ne'
    have := hs.ne'; have := ht.ne'
    push_cast
    field_simp
  exact .piecewise h3 h0 h0 key

open Classical in
/-- C128. The value of `PDF[LogNormalDistribution[mu, sigma], x]` in `C128_logNormal_partial` integrates to 1 over the real line. -/
theorem C128_logNormal_integral (m s : ℝ) (hs : 0 < s) :
    (∫ t : ℝ, if t > 0 then Real.exp (-(Real.log t - m) ^ 2 / (2 * s ^ 2)) / (s * Real.sqrt (2 * Real.pi)) / t else 0) = 1 := by
  obtain ⟨f, -, -, h1, -, hf⟩ := C128_normal_partial m s hs
  have e1 : (fun t : ℝ => if t > 0 then Real.exp (-(Real.log t - m) ^ 2 / (2 * s ^ 2)) / (s * Real.sqrt (2 * Real.pi)) / t else 0) = (Set.Ioi (0 : ℝ)).indicator (fun t => f (Real.log t) / t) := by
    funext t
    by_cases h : t > 0
    · rw [if_pos h, Set.indicator_of_mem (Set.mem_Ioi.2 h), hf]
    · rw [if_neg h, Set.indicator_of_notMem (fun h' => h (Set.mem_Ioi.1 h'))]
  rw [e1, MeasureTheory.integral_indicator measurableSet_Ioi]
  have e2 : Set.Ioi (0 : ℝ) = Real.exp '' Set.univ := by rw [Set.image_univ, Real.range_exp]
  rw [e2, MeasureTheory.integral_image_eq_integral_abs_deriv_smul MeasurableSet.univ (fun x _ => (Real.hasDerivAt_exp x).hasDerivWithinAt) (Real.exp_injective.injOn)]
  rw [MeasureTheory.setIntegral_univ, ← h1]
  congr 1
  funext x
  rw [Real.log_exp, abs_of_pos (Real.exp_pos x), smul_eq_mul]
  have := (Real.exp_pos x).ne'
  field_simp

/-- C128. Refuted: nothing keeps `sigma` positive; for `sigma = -1` the "density" of the normal distribution is negative everywhere. -/
theorem C128_negative (x : Ex) (σ : String → ℝ) (t : ℝ) (hx : Means σ x t) : ∃ v, Means σ (normalPdf (.int 0) (.int (-1)) x) v ∧ v < 0 := by
  have := m_normal (Means.int (σ := σ) 0) (Means.int (σ := σ) (-1)) hx (by norm_num)
  refine ⟨_, this, ?_⟩
  have hp : 0 < Real.sqrt (2 * Real.pi) := by have := Real.pi_pos; positivity
  have he := Real.exp_pos (-((-((0 : ℤ) : ℝ) + t) ^ 2 / (2 * ((-1 : ℤ) : ℝ) ^ 2)))
  apply div_neg_of_pos_of_neg he
  push_cast
  linarith

/-- C128. An expression has at most one value. -/
theorem C128_functional (σ : String → ℝ) (e : Ex) (v w : ℝ) (h1 : Means σ e v) (h2 : Means σ e w) : v = w := by
  induction h1 generalizing w with
  | int n => cases h2; rfl
  | sym s h h' =>
    cases h2 with
    | sym => rfl
    | pi => exact absurd rfl h
  | pi =>
    cases h2 with
    | sym _ h h' => exact absurd rfl h
    | pi => rfl
  | plus2 _ _ i1 i2 => cases h2 with | plus2 a b => rw [i1 _ a, i2 _ b]
  | times1 _ i => cases h2 with | times1 a => exact i _ a
  | times _ _ i1 i2 => cases h2 with | times a b => rw [i1 _ a, i2 _ b]
  | exp _ i =>
    cases h2 with
    | exp a => rw [i _ a]
    | power n a _ => cases a with | sym _ h h' => exact absurd rfl h'
    | sqrt a _ => cases a with | sym _ h h' => exact absurd rfl h'
  | power n a0 _ i =>
    cases h2 with
    | exp a => cases a0 with | sym _ h h' => exact absurd rfl h'
    | power _ a _ => rw [i _ a]
  | sqrt a0 _ i =>
    cases h2 with
    | exp a => cases a0 with | sym _ h h' => exact absurd rfl h'
    | sqrt a _ => rw [i _ a]
  | log _ _ i => cases h2 with | log a _ => rw [i _ a]
  | piecewise _ _ _ ht i1 i2 i3 i4 =>
    cases h2 with
    | piecewise a b d t =>
      have e1 := i1 _ a
      have e2 := i2 _ b
      have e3 := i3 _ d
      subst e1 e2 e3
      split
      · rename_i h; exact i4 h _ (t h)
      · rfl

/-- C128 (test): the arguments may be symbols with values. -/
example : Means (fun s => if s = "sigma" then 2 else 1) (.sym "sigma") 2 ∧ Means (fun s => if s = "sigma" then 2 else 1) (.sym "mu") 1 :=
  ⟨by have := Means.sym (σ := fun s => if s = "sigma" then (2 : ℝ) else 1) "sigma" (by decide) (by decide); simpa using this,
   by have := Means.sym (σ := fun s => if s = "sigma" then (2 : ℝ) else 1) "mu" (by decide) (by decide); simpa using this⟩

end Expreduce
