import Verif.Proofs.IntSem

/-! The derivatives of the right sides of the rules for linear functions. -/

namespace Expreduce
open Ex Shipped Filter Topology

macro "sem_simp" "[" ts:Lean.Parser.Tactic.simpLemma,* "]" loc:(Lean.Parser.Tactic.location)? : tactic =>
  `(tactic| simp only [Shipped.linear, bcad, plus1, recip, quot, sem_add, sem_mul, sem_pow, sem_dv, sem_neg, sem_sub, sem_sq, sem_int, sem_rat, sem_var, semL_cons, semL_nil,
    exists_eq_left, exists_eq_left', exists_eq_right, ↓existsAndEq, and_true, true_and, List.sum_cons, List.sum_nil, List.prod_cons, List.prod_nil, add_zero, mul_one,
    Int.cast_one, Int.cast_zero, Int.cast_neg, Int.cast_ofNat, and_assoc, $ts,*] $(loc)?)

theorem cpow_up {A : ℂ} (h : A ≠ 0) (m : ℂ) : A ^ (m + 1) = A ^ m * A := by rw [Complex.cpow_add _ _ h, Complex.cpow_one]
theorem cpow_down {A : ℂ} (h : A ≠ 0) (m : ℂ) : A ^ (m - 1) = A ^ m / A := by rw [Complex.cpow_sub _ _ h, Complex.cpow_one]

theorem ne_neg1 {A : ℂ} (h : A ≠ 0 ∨ 0 < (-1 : ℂ).re) : A ≠ 0 := by
  rcases h with h | h
  · exact h
  · norm_num at h

theorem calc_inv : CalcOk intInv := by
  intro I T F G hS hc hT hF hG
  have ht : tmpl (templateOf intInv.integrand) = true := by decide +kernel
  have hF' := tmpl_reads (by decide +kernel) (by decide +kernel) hF
  have e : templateOf intInv.integrand = pow (var "x") (.int (-1)) := by decide +kernel
  rw [e] at hG ht
  simp only [den_sem' ht] at hG
  simp only [intInv, sem_log (hS.std _)] at hF'
  sem_simp [leaf_iff (hS.var _)] at hG
  sem_simp [leaf_iff (hS.var _)] at hF'
  refine hasDeriv_congr (F' := fun w => Complex.log (0 + 1 * w)) (hF'.mono fun z h => by simp [h.2]) (deriv_linLog (.inr one_ne_zero)) ?_
  filter_upwards [hG] with z h
  rw [h.2, Complex.cpow_neg_one]
  simp

theorem calc_pow : CalcOk intPow := by
  intro I T F G hS hc hT hF hG
  have ht : tmpl (templateOf intPow.integrand) = true := by decide +kernel
  obtain ⟨m, hm⟩ := leaf_const ht hG (y := "m") (by decide +kernel) (hc _ (by decide))
  have hF' := tmpl_reads (by decide +kernel) (by decide +kernel) hF
  have e : templateOf intPow.integrand = pow (var "x") (var "m") := by decide +kernel
  rw [e] at hG ht
  simp only [den_sem' ht] at hG
  simp only [intPow] at hF'
  sem_simp [leaf_iff (hm _), leaf_iff (hS.var _)] at hG
  sem_simp [leaf_iff (hm _), leaf_iff (hS.var _)] at hF'
  refine hasDeriv_congr (F' := fun w => (0 + 1 * w) ^ (m + 1) / (m + 1)) (hF'.mono fun z h => by simp [h.2])
    ((deriv_linPow (m + 1) (.inr one_ne_zero)).mono fun z h => h.div_const _) ?_
  filter_upwards [hG, hF', mostly_nonzero] with z h1 h2 h3
  rw [h1.2, zero_add, one_mul, cpow_up h3]
  have := h2.2.1
  field_simp

theorem calc_linInv : CalcOk intLinInv := by
  intro I T F G hS hc hT hF hG
  have ht : tmpl (templateOf intLinInv.integrand) = true := by decide +kernel
  obtain ⟨a, ha⟩ := leaf_const ht hG (y := "a") (by decide +kernel) (hc _ (by decide))
  obtain ⟨b, hb⟩ := leaf_const ht hG (y := "b") (by decide +kernel) (hc _ (by decide))
  have e : templateOf intLinInv.integrand = pow (Shipped.linear "a" "b") (.int (-1)) := by decide +kernel
  rw [e] at hG ht
  simp only [den_sem' ht] at hG
  sem_simp [leaf_iff (ha _), leaf_iff (hb _), leaf_iff (hS.var _)] at hG
  obtain ⟨L, B, h1, h2, h3⟩ := reads_mul2 (by decide) (by decide) hF
  have hB := tmpl_reads (by decide +kernel) (by decide +kernel) h2
  sem_simp [leaf_iff (hb _)] at hB
  obtain ⟨Fs, h4, h5⟩ := reads_app (s := "System`Log") (by decide) (by decide) (by decide +kernel) h1
  cases h4 with
  | cons h4 h4' =>
    cases h4'
    obtain ⟨-, K, k, h6, h7, h8⟩ := reads_content h4
    have hK := tmpl_reads (by decide +kernel) (by decide +kernel) h6
    sem_simp [leaf_iff (ha _), leaf_iff (hb _), leaf_iff (hS.var _)] at hK
    obtain ⟨z0, hb0⟩ := hB.exists
    have hb0 : b ≠ 0 := ne_neg1 hb0.1
    refine hasDeriv_congr (F' := fun w => Complex.log (k * a + k * b * w) * b⁻¹) ?_
      ((deriv_linLog (a := k * a) (.inr (mul_ne_zero h7 hb0))).mono fun z h => h.mul_const _) ?_
    · filter_upwards [h3, h5, h8, hK, hB] with z g1 g2 g3 g4 g5
      rw [g1, g5.2, Complex.cpow_neg_one]
      rw [List.map_cons, List.map_nil, arith_fn (by decide), (hS.std z).log, g3, g4] at g2
      congr 1
      split at g2
      · cases g2
      · simp only [Option.some.injEq] at g2
        rw [← g2]
        congr 1
        ring
    · filter_upwards [hG] with z g
      have g0 := ne_neg1 g.1
      rw [g.2, Complex.cpow_neg_one, mul_assoc k b z, ← mul_add]
      field_simp

theorem calc_linPow : CalcOk intLinPow := by
  intro I T F G hS hc hT hF hG
  have ht : tmpl (templateOf intLinPow.integrand) = true := by decide +kernel
  obtain ⟨a, ha⟩ := leaf_const ht hG (y := "a") (by decide +kernel) (hc _ (by decide))
  obtain ⟨b, hb⟩ := leaf_const ht hG (y := "b") (by decide +kernel) (hc _ (by decide))
  obtain ⟨m, hm⟩ := leaf_const ht hG (y := "m") (by decide +kernel) (hc _ (by decide))
  have hF' := tmpl_reads (by decide +kernel) (by decide +kernel) hF
  have e : templateOf intLinPow.integrand = pow (Shipped.linear "a" "b") (var "m") := by decide +kernel
  rw [e] at hG ht
  simp only [den_sem' ht] at hG
  simp only [intLinPow] at hF'
  sem_simp [leaf_iff (ha _), leaf_iff (hb _), leaf_iff (hm _), leaf_iff (hS.var _)] at hG
  sem_simp [leaf_iff (ha _), leaf_iff (hb _), leaf_iff (hm _), leaf_iff (hS.var _)] at hF'
  obtain ⟨z0, hz0⟩ := hF'.exists
  have hb0 : b ≠ 0 := left_ne_zero_of_mul hz0.2.1
  have hm0 : m + 1 ≠ 0 := right_ne_zero_of_mul hz0.2.1
  refine hasDeriv_congr (hF'.mono fun z h => h.2.2) ((deriv_linPow (m + 1) (.inr hb0)).mono fun z h => h.div_const _) ?_
  filter_upwards [hG, linear_ne a b (.inr hb0)] with z h1 h2
  rw [h1.2, cpow_up h2]
  field_simp

/-- Four names whose values are constant. -/
theorem leaf4 {I : ℂ → Interp} {t : Ex} {G : ℂ → ℂ} {free : List String} (ht : tmpl t = true) (hG : ∀ᶠ z in mostly, (I z).Denotes t (G z))
    (hc : ∀ y ∈ free, ∀ z w v, (I z).Denotes (var y) v → (I w).Denotes (var y) v)
    (hf : (["a", "b", "c", "d"].all fun y => free.contains y && (leaves t).contains ("Private`" ++ y)) = true) :
    ∃ a b c d, (∀ z, (I z).Denotes (var "a") a) ∧ (∀ z, (I z).Denotes (var "b") b) ∧ (∀ z, (I z).Denotes (var "c") c) ∧ ∀ z, (I z).Denotes (var "d") d := by
  simp only [List.all_cons, List.all_nil, Bool.and_true, Bool.and_eq_true, List.contains_iff_mem] at hf
  obtain ⟨⟨a1, a2⟩, ⟨b1, b2⟩, ⟨c1, c2⟩, ⟨d1, d2⟩⟩ := hf
  obtain ⟨a, ha⟩ := leaf_const ht hG a2 (hc _ a1)
  obtain ⟨b, hb⟩ := leaf_const ht hG b2 (hc _ b1)
  obtain ⟨c, hcc⟩ := leaf_const ht hG c2 (hc _ c1)
  obtain ⟨d, hd⟩ := leaf_const ht hG d2 (hc _ d1)
  exact ⟨a, b, c, d, ha, hb, hcc, hd⟩

theorem opp_values {I : ℂ → Interp} {T : Ex → Prop} {a b c d : ℂ} (hS : Setting I T) (hT : T opposite) (ha : ∀ z, (I z).Denotes (var "a") a) (hb : ∀ z, (I z).Denotes (var "b") b)
    (hc : ∀ z, (I z).Denotes (var "c") c) (hd : ∀ z, (I z).Denotes (var "d") d) : b * c + a * d = 0 :=
  hS.equal _ _ (by decide +kernel) (by decide +kernel) hT 0 (b * c + a * d) 0
    ((den_sem' (by decide +kernel)).2 (by sem_simp [leaf_iff (ha _), leaf_iff (hb _), leaf_iff (hc _), leaf_iff (hd _)])) den_0

theorem deriv_two {a b c d : ℂ} (m n : ℂ) (hA : a ≠ 0 ∨ b ≠ 0) (hB : c ≠ 0 ∨ d ≠ 0) :
    ∀ᶠ z in mostly, HasDerivAt (fun w => (a + b * w) ^ m * (c + d * w) ^ n)
      ((a + b * z) ^ m * (c + d * z) ^ n * (m * b / (a + b * z) + n * d / (c + d * z))) z := by
  filter_upwards [deriv_linPow m hA, deriv_linPow n hB] with z h1 h2
  have h := h1.mul h2
  have e : m * b * ((a + b * z) ^ m / (a + b * z)) * (c + d * z) ^ n + (a + b * z) ^ m * (n * d * ((c + d * z) ^ n / (c + d * z))) =
      (a + b * z) ^ m * (c + d * z) ^ n * (m * b / (a + b * z) + n * d / (c + d * z)) := by
    simp only [div_eq_mul_inv]; ring
  rw [e] at h
  exact h

theorem deriv_same {a b c d : ℂ} (m : ℂ) (hA : a ≠ 0 ∨ b ≠ 0) (hB : c ≠ 0 ∨ d ≠ 0) (hE : b * c + a * d = 0) :
    ∀ᶠ z in mostly, HasDerivAt (fun w => w * ((a + b * w) ^ m * (c + d * w) ^ m))
      ((a + b * z) ^ m * (c + d * z) ^ m * ((2 * m + 1) - 2 * m * a * c / ((a + b * z) * (c + d * z)))) z := by
  filter_upwards [deriv_two m m hA hB, linear_ne a b hA, linear_ne c d hB] with z h1 h2 h3
  have h := (hasDerivAt_id z).mul h1
  have e : 1 * ((a + b * z) ^ m * (c + d * z) ^ m) + id z * ((a + b * z) ^ m * (c + d * z) ^ m * (m * b / (a + b * z) + m * d / (c + d * z))) =
      (a + b * z) ^ m * (c + d * z) ^ m * ((2 * m + 1) - 2 * m * a * c / ((a + b * z) * (c + d * z))) := by
    simp only [id]
    generalize (a + b * z) ^ m * (c + d * z) ^ m = P
    generalize eA : a + b * z = A at h2 ⊢
    generalize eB : c + d * z = B at h3 ⊢
    field_simp
    subst eA eB
    linear_combination -(m * z * P) * hE
  rw [e] at h
  exact h

theorem hasDeriv_int {F A H α g G : ℂ → ℂ} {k : ℂ} (h : F =ᶠ[mostly] fun z => A z + k * H z) (h1 : ∀ᶠ z in mostly, HasDerivAt A (α z) z)
    (h2 : ∀ᶠ z in mostly, HasDerivAt H (g z) z) (h3 : ∀ᶠ z in mostly, α z + k * g z = G z) : ∀ᶠ z in mostly, HasDerivAt F (G z) z := by
  refine hasDeriv_congr h (g := fun z => α z + k * g z) ?_ h3
  filter_upwards [h1, h2] with z k1 k2
  exact k1.add (k2.const_mul k)

theorem calc_twoInvOpp : CalcOk intTwoInvOpp := by
  intro I T F G hS hc hT hF hG
  have ht : tmpl (templateOf intTwoInvOpp.integrand) = true := by decide +kernel
  obtain ⟨a, b, c, d, ha, hb, hcc, hd⟩ := leaf4 ht hG hc (by decide +kernel)
  have e : templateOf intTwoInvOpp.integrand = mul [pow (Shipped.linear "a" "b") (.int (-1)), pow (Shipped.linear "c" "d") (.int (-1))] := by decide +kernel
  rw [e] at hG ht
  simp only [den_sem' ht] at hG
  have hE := opp_values hS (hT opposite (by simp [intTwoInvOpp])) ha hb hcc hd
  sem_simp [leaf_iff (ha _), leaf_iff (hb _), leaf_iff (hcc _), leaf_iff (hd _), leaf_iff (hS.var _)] at hG
  obtain ⟨-, g, h1, h2⟩ := reads_int hF
  have h1' := tmpl_reads (by decide +kernel) (by decide +kernel) h1
  sem_simp [leaf_iff (ha _), leaf_iff (hb _), leaf_iff (hcc _), leaf_iff (hd _), leaf_iff (hS.var _)] at h1'
  refine hasDeriv_congr .rfl h2 ?_
  filter_upwards [h1', hG] with z k1 k2
  rw [k1.2, k2.2.2, Complex.cpow_neg_one, Complex.cpow_neg_one, ← mul_inv, one_div]
  congr 1
  linear_combination -z * hE

theorem calc_twoInv : CalcOk intTwoInv := by
  intro I T F G hS hc hT hF hG
  have ht : tmpl (templateOf intTwoInv.integrand) = true := by decide +kernel
  obtain ⟨a, b, c, d, ha, hb, hcc, hd⟩ := leaf4 ht hG hc (by decide +kernel)
  have e : templateOf intTwoInv.integrand = mul [pow (Shipped.linear "a" "b") (.int (-1)), pow (Shipped.linear "c" "d") (.int (-1))] := by decide +kernel
  rw [e] at hG ht
  simp only [den_sem' ht] at hG
  sem_simp [leaf_iff (ha _), leaf_iff (hb _), leaf_iff (hcc _), leaf_iff (hd _), leaf_iff (hS.var _)] at hG
  obtain ⟨X, Y, h1, h2, h3⟩ := reads_add2 (by decide) (by decide) hF
  obtain ⟨X1, H1, h4, h5, h6⟩ := reads_mul2 (by decide) (by decide) h1
  obtain ⟨N, Y', h7, h8, h9⟩ := reads_mul2 (by decide) (by decide) h2
  obtain ⟨Y1, H2, h10, h11, h12⟩ := reads_mul2 (by decide) (by decide) h8
  obtain ⟨-, g1, h13, h14⟩ := reads_int h5
  obtain ⟨-, g2, h15, h16⟩ := reads_int h11
  replace h4 := tmpl_reads (by decide +kernel) (by decide +kernel) h4
  replace h7 := tmpl_reads (by decide +kernel) (by decide +kernel) h7
  replace h10 := tmpl_reads (by decide +kernel) (by decide +kernel) h10
  replace h13 := tmpl_reads (by decide +kernel) (by decide +kernel) h13
  replace h15 := tmpl_reads (by decide +kernel) (by decide +kernel) h15
  sem_simp [leaf_iff (ha _), leaf_iff (hb _), leaf_iff (hcc _), leaf_iff (hd _), leaf_iff (hS.var _)] at h4
  sem_simp [leaf_iff (ha _), leaf_iff (hb _), leaf_iff (hcc _), leaf_iff (hd _), leaf_iff (hS.var _)] at h7
  sem_simp [leaf_iff (ha _), leaf_iff (hb _), leaf_iff (hcc _), leaf_iff (hd _), leaf_iff (hS.var _)] at h10
  sem_simp [leaf_iff (ha _), leaf_iff (hb _), leaf_iff (hcc _), leaf_iff (hd _), leaf_iff (hS.var _)] at h13
  sem_simp [leaf_iff (ha _), leaf_iff (hb _), leaf_iff (hcc _), leaf_iff (hd _), leaf_iff (hS.var _)] at h15
  refine hasDeriv_congr (F' := fun z => b / (b * c - a * d) * H1 z + -1 * (d / (b * c - a * d) * H2 z)) ?_
    (g := fun z => b / (b * c - a * d) * g1 z + -1 * (d / (b * c - a * d) * g2 z)) ?_ ?_
  · filter_upwards [h3, h6, h9, h12, h4, h7, h10] with z k1 k2 k3 k4 k5 k6 k7
    rw [k1, k2, k3, k4, k5.2, k6, k7.2]
  · filter_upwards [h14, h16] with z k1 k2
    exact (k1.const_mul _).add ((k2.const_mul _).const_mul _)
  · filter_upwards [h4, h13, h15, hG] with z k1 k2 k3 k4
    rw [k2.2, k3.2, k4.2.2, Complex.cpow_neg_one, Complex.cpow_neg_one]
    have e1 := k1.1
    have e2 := k2.1
    have e3 := k3.1
    field_simp
    ring

theorem calc_twoPow : CalcOk intTwoPow := by
  intro I T F G hS hc hT hF hG
  have ht : tmpl (templateOf intTwoPow.integrand) = true := by decide +kernel
  obtain ⟨a, b, c, d, ha, hb, hcc, hd⟩ := leaf4 ht hG hc (by decide +kernel)
  obtain ⟨m, hm⟩ := leaf_const ht hG (y := "m") (by decide +kernel) (hc _ (by decide))
  obtain ⟨n, hn⟩ := leaf_const ht hG (y := "n") (by decide +kernel) (hc _ (by decide))
  have e : templateOf intTwoPow.integrand = mul [pow (Shipped.linear "a" "b") (var "m"), pow (Shipped.linear "c" "d") (var "n")] := by decide +kernel
  rw [e] at hG ht
  simp only [den_sem' ht] at hG
  sem_simp [leaf_iff (ha _), leaf_iff (hb _), leaf_iff (hcc _), leaf_iff (hd _), leaf_iff (hS.var _), leaf_iff (hm _), leaf_iff (hn _)] at hG
  have h1 := tmpl_reads (by decide +kernel) (by decide +kernel) hF
  simp only [intTwoPow] at h1
  sem_simp [leaf_iff (ha _), leaf_iff (hb _), leaf_iff (hcc _), leaf_iff (hd _), leaf_iff (hS.var _), leaf_iff (hm _), leaf_iff (hn _)] at h1
  have hE : m + (n + 2) = 0 := hS.equal _ _ (by decide +kernel) (by decide +kernel) (hT (eqQ (add [var "m", var "n", .int 2]) (.int 0)) (by simp [intTwoPow])) 0 _ 0
    ((den_sem' (by decide +kernel)).2 (by sem_simp [leaf_iff (ha _), leaf_iff (hb _), leaf_iff (hcc _), leaf_iff (hd _), leaf_iff (hS.var _), leaf_iff (hm _), leaf_iff (hn _)])) den_0
  obtain ⟨z0, h0⟩ := h1.exists
  have hK : b * c - a * d ≠ 0 := left_ne_zero_of_mul h0.2.2.1
  have hm1 : m + 1 ≠ 0 := right_ne_zero_of_mul h0.2.2.1
  have hA : a ≠ 0 ∨ b ≠ 0 := by
    by_contra h
    push Not at h
    exact hK (by rw [h.1, h.2]; ring)
  have hB : c ≠ 0 ∨ d ≠ 0 := by
    by_contra h
    push Not at h
    exact hK (by rw [h.1, h.2]; ring)
  refine hasDeriv_congr (h1.mono fun z h => h.2.2.2) ((deriv_two (m + 1) (n + 1) hA hB).mono fun z h => h.div_const _) ?_
  filter_upwards [hG, linear_ne a b hA, linear_ne c d hB] with z k1 k2 k3
  rw [k1.2.2, cpow_up k2, cpow_up k3]
  have en : n + 1 = -(m + 1) := by linear_combination hE
  rw [en]
  generalize (a + b * z) ^ m = P
  generalize (c + d * z) ^ n = Q
  generalize eA : a + b * z = A at k2 ⊢
  generalize eB : c + d * z = B at k3 ⊢
  generalize eK : b * c - a * d = K at hK ⊢
  generalize eM : m + 1 = M at hm1 ⊢
  field_simp
  subst eA eB eK
  ring

theorem quarter_ne {A y : ℂ} (hy : y.re ≤ 0) (h : A ≠ 0 ∨ 0 < y.re) : A ≠ 0 := h.resolve_right (not_lt.2 hy)

theorem half_ne {n : Int} {m : ℂ} (h : m + 1 / 2 = n) : m ≠ 0 := by
  rintro rfl
  have h2 : ((2 * n - 1 : Int) : ℂ) = 0 := by push_cast; rw [← h]; norm_num
  have h3 : (2 * n - 1 : Int) = 0 := by exact_mod_cast h2
  omega

theorem calc_sameUp : CalcOk intSameUp := by
  intro I T F G hS hc hT hF hG
  have ht : tmpl (templateOf intSameUp.integrand) = true := by decide +kernel
  obtain ⟨a, b, c, d, ha, hb, hcc, hd⟩ := leaf4 ht hG hc (by decide +kernel)
  obtain ⟨km, hkm⟩ := leaf_mostly ht hG (y := "m") (by decide +kernel)
  have e : templateOf intSameUp.integrand = mul [pow (Shipped.linear "a" "b") (var "m"), pow (Shipped.linear "c" "d") (var "m")] := by decide +kernel
  rw [e] at hG ht
  simp only [den_sem' ht] at hG
  have hE := opp_values hS (hT opposite (by simp [intSameUp])) ha hb hcc hd
  obtain ⟨i, hi⟩ := hS.posInteger _ (by decide +kernel) (hT (testR "PositiveIntegerQ" [add [var "m", quot 1 2]]) (by simp [intSameUp]))
  obtain ⟨m, hm⟩ : ∃ m : ℂ, m + 1 / 2 = i := ⟨i - 1 / 2, by ring⟩
  have km : ∀ᶠ z in mostly, (I z).Denotes (var "m") m := by
    filter_upwards [hkm] with z k
    have := hi z (km z + 1 / 2) ((den_sem' (by decide +kernel)).2 (by sem_simp [leaf_iff k]; norm_num))
    rwa [show m = km z from by linear_combination hm - this]
  clear hkm
  obtain ⟨X, Y, h1, h2, h3⟩ := reads_add2 (by decide) (by decide) hF
  obtain ⟨K, H, h4, h5, h6⟩ := reads_mul2 (by decide) (by decide) h2
  obtain ⟨-, g, h7, h8⟩ := reads_int h5
  replace h1 := tmpl_reads (by decide +kernel) (by decide +kernel) h1
  replace h4 := tmpl_reads (by decide +kernel) (by decide +kernel) h4
  replace h7 := tmpl_reads (by decide +kernel) (by decide +kernel) h7
  have hX : ∀ᶠ z in mostly, 2 * m + 1 ≠ 0 ∧ X z = z * ((a + b * z) ^ m * (c + d * z) ^ m) / (2 * m + 1) := by
    filter_upwards [h1, km] with z k1 k2
    sem_simp [leaf_iff (ha _), leaf_iff (hb _), leaf_iff (hcc _), leaf_iff (hd _), leaf_iff (hS.var _), leaf_iff k2] at k1
    exact ⟨k1.2.2.1, k1.2.2.2⟩
  have hK : ∀ᶠ z in mostly, K z = 2 * (a * (c * m)) / (2 * m + 1) := by
    filter_upwards [h4, km] with z k1 k2
    sem_simp [leaf_iff (ha _), leaf_iff (hb _), leaf_iff (hcc _), leaf_iff (hd _), leaf_iff (hS.var _), leaf_iff k2] at k1
    exact k1.2
  have hg : ∀ᶠ z in mostly, g z = (a + b * z) ^ (m - 1) * (c + d * z) ^ (m - 1) := by
    filter_upwards [h7, km] with z k1 k2
    sem_simp [leaf_iff (ha _), leaf_iff (hb _), leaf_iff (hcc _), leaf_iff (hd _), leaf_iff (hS.var _), leaf_iff k2] at k1
    exact k1.2.2
  have hG' : ∀ᶠ z in mostly, G z = (a + b * z) ^ m * (c + d * z) ^ m := by
    filter_upwards [hG, km] with z k1 k2
    sem_simp [leaf_iff (ha _), leaf_iff (hb _), leaf_iff (hcc _), leaf_iff (hd _), leaf_iff (hS.var _), leaf_iff k2] at k1
    exact k1.2.2
  obtain ⟨z0, hz0⟩ := hX.exists
  have h2m := hz0.1
  have hm0 := half_ne hm
  have hFF : F =ᶠ[mostly] fun z => z * ((a + b * z) ^ m * (c + d * z) ^ m) / (2 * m + 1) + 2 * (a * (c * m)) / (2 * m + 1) * H z := by
    filter_upwards [h3, h6, hX, hK] with z k1 k2 k3 k4
    rw [k1, k2, k3.2, k4]
  by_cases hA : a ≠ 0 ∨ b ≠ 0
  · by_cases hB : c ≠ 0 ∨ d ≠ 0
    · refine hasDeriv_int hFF ((deriv_same m hA hB hE).mono fun z h => h.div_const _) h8 ?_
      filter_upwards [hg, hG', linear_ne a b hA, linear_ne c d hB] with z k1 k2 k3 k4
      rw [k1, k2, cpow_down k3, cpow_down k4]
      generalize (a + b * z) ^ m = P
      generalize (c + d * z) ^ m = Q
      generalize eA : a + b * z = A at k3 ⊢
      generalize eB : c + d * z = B at k4 ⊢
      field_simp
      ring
    · push Not at hB
      obtain ⟨rfl, rfl⟩ := hB
      refine hasDeriv_congr (hFF.trans (.of_forall fun z => ?_)) (.of_forall fun z => hasDerivAt_const z (0 : ℂ)) (hG'.mono fun z k => ?_)
      · simp [Complex.zero_cpow hm0]
      · rw [k]; simp [Complex.zero_cpow hm0]
  · push Not at hA
    obtain ⟨rfl, rfl⟩ := hA
    refine hasDeriv_congr (hFF.trans (.of_forall fun z => ?_)) (.of_forall fun z => hasDerivAt_const z (0 : ℂ)) (hG'.mono fun z k => ?_)
    · simp [Complex.zero_cpow hm0]
    · rw [k]; simp [Complex.zero_cpow hm0]

theorem calc_threeHalves : CalcOk intThreeHalves := by
  intro I T F G hS hc hT hF hG
  have ht : tmpl (templateOf intThreeHalves.integrand) = true := by decide +kernel
  obtain ⟨a, b, c, d, ha, hb, hcc, hd⟩ := leaf4 ht hG hc (by decide +kernel)
  have e : templateOf intThreeHalves.integrand = mul [pow (Shipped.linear "a" "b") (.rat (-3) 2), pow (Shipped.linear "c" "d") (.rat (-3) 2)] := by decide +kernel
  rw [e] at hG ht
  simp only [den_sem' ht] at hG
  have hE := opp_values hS (hT opposite (by simp [intThreeHalves])) ha hb hcc hd
  sem_simp [leaf_iff (ha _), leaf_iff (hb _), leaf_iff (hcc _), leaf_iff (hd _), leaf_iff (hS.var _)] at hG
  have h1 := tmpl_reads (by decide +kernel) (by decide +kernel) hF
  simp only [intThreeHalves, sem_sqrt (hS.std _), sem_dv, sem_mul, semL_cons, semL_nil] at h1
  sem_simp [leaf_iff (ha _), leaf_iff (hb _), leaf_iff (hcc _), leaf_iff (hd _), leaf_iff (hS.var _), sem_sqrt (hS.std _)] at h1
  obtain ⟨z0, h0⟩ := h1.exists
  have ha0 : a ≠ 0 := left_ne_zero_of_mul h0.1
  have hc0 : c ≠ 0 := left_ne_zero_of_mul (right_ne_zero_of_mul h0.1)
  refine hasDeriv_congr (F' := fun z => z * ((a + b * z) ^ (-(1 / 2) : ℂ) * (c + d * z) ^ (-(1 / 2) : ℂ)) / (a * c)) (h1.mono fun z h => ?_)
    ((deriv_same (-(1 / 2)) (.inl ha0) (.inl hc0) hE).mono fun z h => h.div_const _) ?_
  · rw [h.2]
    beta_reduce
    rw [Complex.cpow_neg, Complex.cpow_neg]
    have e1 := h.1
    have e2 := left_ne_zero_of_mul (right_ne_zero_of_mul (right_ne_zero_of_mul e1))
    have e3 := right_ne_zero_of_mul (right_ne_zero_of_mul (right_ne_zero_of_mul e1))
    generalize (a + b * z) ^ (1 / 2 : ℂ) = P at e2 ⊢
    generalize (c + d * z) ^ (1 / 2 : ℂ) = Q at e3 ⊢
    field_simp
  · filter_upwards [hG, linear_ne a b (.inl ha0), linear_ne c d (.inl hc0)] with z k1 k2 k3
    have e1 : (-(1 / 2) : ℂ) = -3 / 2 + 1 := by norm_num
    rw [k1.2.2.2.2, e1, cpow_up k2, cpow_up k3]
    generalize (a + b * z) ^ (-3 / 2 : ℂ) = P
    generalize (c + d * z) ^ (-3 / 2 : ℂ) = Q
    generalize eA : a + b * z = A at k2 ⊢
    generalize eB : c + d * z = B at k3 ⊢
    field_simp
    ring

theorem calc_sameDown : CalcOk intSameDown := by
  intro I T F G hS hc hT hF hG
  have ht : tmpl (templateOf intSameDown.integrand) = true := by decide +kernel
  obtain ⟨a, b, c, d, ha, hb, hcc, hd⟩ := leaf4 ht hG hc (by decide +kernel)
  obtain ⟨km, hkm⟩ := leaf_mostly ht hG (y := "m") (by decide +kernel)
  have e : templateOf intSameDown.integrand = mul [pow (Shipped.linear "a" "b") (var "m"), pow (Shipped.linear "c" "d") (var "m")] := by decide +kernel
  rw [e] at hG ht
  simp only [den_sem' ht] at hG
  have hE := opp_values hS (hT opposite (by simp [intSameDown])) ha hb hcc hd
  obtain ⟨i, hi⟩ := hS.negInteger _ (by decide +kernel) (hT (testR "NegativeIntegerQ" [add [var "m", quot 3 2]]) (by simp [intSameDown]))
  obtain ⟨m, hm⟩ : ∃ m : ℂ, m + 3 / 2 = i := ⟨i - 3 / 2, by ring⟩
  have km : ∀ᶠ z in mostly, (I z).Denotes (var "m") m := by
    filter_upwards [hkm] with z k
    have := hi z (km z + 3 / 2) ((den_sem' (by decide +kernel)).2 (by sem_simp [leaf_iff k]; norm_num))
    rwa [show m = km z from by linear_combination hm - this]
  clear hkm
  obtain ⟨X, Y, h1, h2, h3⟩ := reads_add2 (by decide) (by decide) hF
  obtain ⟨K, H, h4, h5, h6⟩ := reads_mul2 (by decide) (by decide) h2
  obtain ⟨-, g, h7, h8⟩ := reads_int h5
  replace h1 := tmpl_reads (by decide +kernel) (by decide +kernel) h1
  replace h4 := tmpl_reads (by decide +kernel) (by decide +kernel) h4
  replace h7 := tmpl_reads (by decide +kernel) (by decide +kernel) h7
  have hX : ∀ᶠ z in mostly, 2 * (a * (c * (m + 1))) ≠ 0 ∧ X z = -1 * (z * ((a + b * z) ^ (m + 1) * (c + d * z) ^ (m + 1))) / (2 * (a * (c * (m + 1)))) := by
    filter_upwards [h1, km] with z k1 qm
    sem_simp [leaf_iff (ha _), leaf_iff (hb _), leaf_iff (hcc _), leaf_iff (hd _), leaf_iff (hS.var _), leaf_iff qm] at k1
    exact ⟨k1.2.2.1, k1.2.2.2⟩
  have hK : ∀ᶠ z in mostly, K z = (2 * m + 3) / (2 * (a * (c * (m + 1)))) := by
    filter_upwards [h4, km] with z k1 qm
    sem_simp [leaf_iff (ha _), leaf_iff (hb _), leaf_iff (hcc _), leaf_iff (hd _), leaf_iff (hS.var _), leaf_iff qm] at k1
    exact k1.2
  have hg : ∀ᶠ z in mostly, g z = (a + b * z) ^ (m + 1) * (c + d * z) ^ (m + 1) := by
    filter_upwards [h7, km] with z k1 qm
    sem_simp [leaf_iff (ha _), leaf_iff (hb _), leaf_iff (hcc _), leaf_iff (hd _), leaf_iff (hS.var _), leaf_iff qm] at k1
    exact k1.2.2
  have hG' : ∀ᶠ z in mostly, G z = (a + b * z) ^ m * (c + d * z) ^ m := by
    filter_upwards [hG, km] with z k1 qm
    sem_simp [leaf_iff (ha _), leaf_iff (hb _), leaf_iff (hcc _), leaf_iff (hd _), leaf_iff (hS.var _), leaf_iff qm] at k1
    exact k1.2.2
  obtain ⟨z0, hz0⟩ := hX.exists
  have ha0 : a ≠ 0 := left_ne_zero_of_mul (right_ne_zero_of_mul hz0.1)
  have hc0 : c ≠ 0 := left_ne_zero_of_mul (right_ne_zero_of_mul (right_ne_zero_of_mul hz0.1))
  have hm0 : m + 1 ≠ 0 := right_ne_zero_of_mul (right_ne_zero_of_mul (right_ne_zero_of_mul hz0.1))
  have hFF : F =ᶠ[mostly] fun z => -1 * (z * ((a + b * z) ^ (m + 1) * (c + d * z) ^ (m + 1))) / (2 * (a * (c * (m + 1)))) + (2 * m + 3) / (2 * (a * (c * (m + 1)))) * H z := by
    filter_upwards [h3, h6, hX, hK] with z k1 k2 k3 k4
    rw [k1, k2, k3.2, k4]
  refine hasDeriv_int hFF ((deriv_same (m + 1) (.inl ha0) (.inl hc0) hE).mono fun z h => (h.const_mul _).div_const _) h8 ?_
  filter_upwards [hg, hG', linear_ne a b (.inl ha0), linear_ne c d (.inl hc0)] with z k1 k2 k3 k4
  rw [k1, k2, cpow_up k3, cpow_up k4]
  generalize (a + b * z) ^ m = P
  generalize (c + d * z) ^ m = Q
  generalize eA : a + b * z = A at k3 ⊢
  generalize eB : c + d * z = B at k4 ⊢
  generalize eM : m + 1 = M at hm0 ⊢
  field_simp
  subst eM
  ring

theorem calc_fiveQuarters : CalcOk intFiveQuarters := by
  intro I T F G hS hc hT hF hG
  have ht : tmpl (templateOf intFiveQuarters.integrand) = true := by decide +kernel
  obtain ⟨a, b, c, d, ha, hb, hcc, hd⟩ := leaf4 ht hG hc (by decide +kernel)
  have e : templateOf intFiveQuarters.integrand = mul [pow (Shipped.linear "a" "b") (.rat (-5) 4), pow (Shipped.linear "c" "d") (.rat (-1) 4)] := by decide +kernel
  rw [e] at hG ht
  simp only [den_sem' ht] at hG
  have hE := opp_values hS (hT opposite (by simp [intFiveQuarters])) ha hb hcc hd
  obtain ⟨X, Y, h1, h2, h3⟩ := reads_add2 (by decide) (by decide) hF
  obtain ⟨K, H, h4, h5, h6⟩ := reads_mul2 (by decide) (by decide) h2
  obtain ⟨-, g, h7, h8⟩ := reads_int h5
  replace h1 := tmpl_reads (by decide +kernel) (by decide +kernel) h1
  replace h4 := tmpl_reads (by decide +kernel) (by decide +kernel) h4
  replace h7 := tmpl_reads (by decide +kernel) (by decide +kernel) h7
  have hX : ∀ᶠ z in mostly, b * ((a + b * z) ^ (1 / 4 : ℂ) * (c + d * z) ^ (1 / 4 : ℂ)) ≠ 0 ∧ X z = -2 / (b * ((a + b * z) ^ (1 / 4 : ℂ) * (c + d * z) ^ (1 / 4 : ℂ))) := by
    filter_upwards [h1] with z k1 
    sem_simp [leaf_iff (ha _), leaf_iff (hb _), leaf_iff (hcc _), leaf_iff (hd _), leaf_iff (hS.var _)] at k1
    exact ⟨k1.2.2.2.2.1, k1.2.2.2.2.2⟩
  have hK : ∀ᶠ z in mostly, K z = c := by
    filter_upwards [h4] with z k1 
    sem_simp [leaf_iff (ha _), leaf_iff (hb _), leaf_iff (hcc _), leaf_iff (hd _), leaf_iff (hS.var _)] at k1
    exact k1
  have hg : ∀ᶠ z in mostly, g z = 1 / ((a + b * z) ^ (5 / 4 : ℂ) * (c + d * z) ^ (5 / 4 : ℂ)) := by
    filter_upwards [h7] with z k1 
    sem_simp [leaf_iff (ha _), leaf_iff (hb _), leaf_iff (hcc _), leaf_iff (hd _), leaf_iff (hS.var _)] at k1
    exact k1.2.2.2.2.2
  have hG' : ∀ᶠ z in mostly, a + b * z ≠ 0 ∧ c + d * z ≠ 0 ∧ G z = (a + b * z) ^ (-5 / 4 : ℂ) * (c + d * z) ^ (-1 / 4 : ℂ) := by
    filter_upwards [hG] with z k1 
    sem_simp [leaf_iff (ha _), leaf_iff (hb _), leaf_iff (hcc _), leaf_iff (hd _), leaf_iff (hS.var _)] at k1
    exact ⟨quarter_ne (by norm_num) k1.2.1, quarter_ne (by norm_num) k1.2.2.2.1, k1.2.2.2.2⟩
  obtain ⟨z0, hz0⟩ := hX.exists
  have hb0 : b ≠ 0 := left_ne_zero_of_mul hz0.1
  obtain ⟨z1, hz1⟩ := hG'.exists
  have hB : c ≠ 0 ∨ d ≠ 0 := by
    by_contra h
    push Not at h
    exact hz1.2.1 (by rw [h.1, h.2]; ring)
  have hFF : F =ᶠ[mostly] fun z => -2 / b * ((a + b * z) ^ (-(1 / 4) : ℂ) * (c + d * z) ^ (-(1 / 4) : ℂ)) + c * H z := by
    filter_upwards [h3, h6, hX, hK, hG'] with z k1 k2 k3 k4 k5
    have k6 := k3.1
    rw [k1, k2, k3.2, k4, Complex.cpow_neg, Complex.cpow_neg]
    have e2 := left_ne_zero_of_mul (right_ne_zero_of_mul k6)
    have e3 := right_ne_zero_of_mul (right_ne_zero_of_mul k6)
    generalize (a + b * z) ^ (1 / 4 : ℂ) = P at e2 ⊢
    generalize (c + d * z) ^ (1 / 4 : ℂ) = Q at e3 ⊢
    field_simp
  refine hasDeriv_int hFF ((deriv_two (-(1 / 4)) (-(1 / 4)) (.inr hb0) hB).mono fun z h => h.const_mul _) h8 ?_
  filter_upwards [hg, hG'] with z k1 k2
  obtain ⟨k2, k3, k4⟩ := k2
  have e1 : (-(1 / 4) : ℂ) = -5 / 4 + 1 := by norm_num
  have e2 : (-1 / 4 : ℂ) = -5 / 4 + 1 := by norm_num
  have e3 : (5 / 4 : ℂ) = -(-5 / 4) := by norm_num
  rw [k1, k4, e1, e2, e3, cpow_up k2, cpow_up k3, Complex.cpow_neg, Complex.cpow_neg]
  have n1 : (a + b * z) ^ (-5 / 4 : ℂ) ≠ 0 := fun h => k2 ((Complex.cpow_eq_zero_iff _ _).1 h).1
  have n2 : (c + d * z) ^ (-5 / 4 : ℂ) ≠ 0 := fun h => k3 ((Complex.cpow_eq_zero_iff _ _).1 h).1
  generalize (a + b * z) ^ (-5 / 4 : ℂ) = P at n1 ⊢
  generalize (c + d * z) ^ (-5 / 4 : ℂ) = Q at n2 ⊢
  generalize eA : a + b * z = A at k2 ⊢
  generalize eB : c + d * z = B at k3 ⊢
  field_simp
  subst eA eB
  linear_combination 2 * hE

theorem calc_nineQuarters : CalcOk intNineQuarters := by
  intro I T F G hS hc hT hF hG
  have ht : tmpl (templateOf intNineQuarters.integrand) = true := by decide +kernel
  obtain ⟨a, b, c, d, ha, hb, hcc, hd⟩ := leaf4 ht hG hc (by decide +kernel)
  have e : templateOf intNineQuarters.integrand = mul [pow (Shipped.linear "a" "b") (.rat (-9) 4), pow (Shipped.linear "c" "d") (.rat (-1) 4)] := by decide +kernel
  rw [e] at hG ht
  simp only [den_sem' ht] at hG
  have hE := opp_values hS (hT opposite (by simp [intNineQuarters])) ha hb hcc hd
  obtain ⟨X, Y, h1, h2, h3⟩ := reads_add2 (by decide) (by decide) hF
  obtain ⟨N, Y', h9, h10, h11⟩ := reads_mul2 (by decide) (by decide) h2
  obtain ⟨K, H, h4, h5, h6⟩ := reads_mul2 (by decide) (by decide) h10
  obtain ⟨-, g, h7, h8⟩ := reads_int h5
  replace h1 := tmpl_reads (by decide +kernel) (by decide +kernel) h1
  replace h4 := tmpl_reads (by decide +kernel) (by decide +kernel) h4
  replace h7 := tmpl_reads (by decide +kernel) (by decide +kernel) h7
  replace h9 := tmpl_reads (by decide +kernel) (by decide +kernel) h9
  have hX : ∀ᶠ z in mostly, 5 * (b * ((a + b * z) ^ (5 / 4 : ℂ) * (c + d * z) ^ (1 / 4 : ℂ))) ≠ 0 ∧ X z = -4 / (5 * (b * ((a + b * z) ^ (5 / 4 : ℂ) * (c + d * z) ^ (1 / 4 : ℂ)))) := by
    filter_upwards [h1] with z k1 
    sem_simp [leaf_iff (ha _), leaf_iff (hb _), leaf_iff (hcc _), leaf_iff (hd _), leaf_iff (hS.var _)] at k1
    exact ⟨k1.2.2.2.2.1, k1.2.2.2.2.2⟩
  have hK : ∀ᶠ z in mostly, K z = d / (5 * b) := by
    filter_upwards [h4] with z k1 
    sem_simp [leaf_iff (ha _), leaf_iff (hb _), leaf_iff (hcc _), leaf_iff (hd _), leaf_iff (hS.var _)] at k1
    exact k1.2
  have hN : ∀ᶠ z in mostly, N z = -1 := by
    filter_upwards [h9] with z k1 
    sem_simp [leaf_iff (ha _), leaf_iff (hb _), leaf_iff (hcc _), leaf_iff (hd _), leaf_iff (hS.var _)] at k1
    exact k1
  have hg : ∀ᶠ z in mostly, g z = 1 / ((a + b * z) ^ (5 / 4 : ℂ) * (c + d * z) ^ (5 / 4 : ℂ)) := by
    filter_upwards [h7] with z k1 
    sem_simp [leaf_iff (ha _), leaf_iff (hb _), leaf_iff (hcc _), leaf_iff (hd _), leaf_iff (hS.var _)] at k1
    exact k1.2.2.2.2.2
  have hG' : ∀ᶠ z in mostly, a + b * z ≠ 0 ∧ c + d * z ≠ 0 ∧ G z = (a + b * z) ^ (-9 / 4 : ℂ) * (c + d * z) ^ (-1 / 4 : ℂ) := by
    filter_upwards [hG] with z k1 
    sem_simp [leaf_iff (ha _), leaf_iff (hb _), leaf_iff (hcc _), leaf_iff (hd _), leaf_iff (hS.var _)] at k1
    exact ⟨quarter_ne (by norm_num) k1.2.1, quarter_ne (by norm_num) k1.2.2.2.1, k1.2.2.2.2⟩
  obtain ⟨z0, hz0⟩ := hX.exists
  have hb0 : b ≠ 0 := left_ne_zero_of_mul (right_ne_zero_of_mul hz0.1)
  obtain ⟨z1, hz1⟩ := hG'.exists
  have hB : c ≠ 0 ∨ d ≠ 0 := by
    by_contra h
    push Not at h
    exact hz1.2.1 (by rw [h.1, h.2]; ring)
  have hFF : F =ᶠ[mostly] fun z => -4 / (5 * b) * ((a + b * z) ^ (-(5 / 4) : ℂ) * (c + d * z) ^ (-(1 / 4) : ℂ)) + -(d / (5 * b)) * H z := by
    filter_upwards [h3, h6, hX, hK, hG', h11, hN] with z k1 k2 k3 k4 k5 k7 k8
    have k6 := k3.1
    rw [k1, k7, k8, k2, k3.2, k4, Complex.cpow_neg, Complex.cpow_neg]
    have e2 := left_ne_zero_of_mul (right_ne_zero_of_mul (right_ne_zero_of_mul k6))
    have e3 := right_ne_zero_of_mul (right_ne_zero_of_mul (right_ne_zero_of_mul k6))
    generalize (a + b * z) ^ (5 / 4 : ℂ) = P at e2 ⊢
    generalize (c + d * z) ^ (1 / 4 : ℂ) = Q at e3 ⊢
    field_simp
  refine hasDeriv_int hFF ((deriv_two (-(5 / 4)) (-(1 / 4)) (.inr hb0) hB).mono fun z h => h.const_mul _) h8 ?_
  filter_upwards [hg, hG'] with z k1 k2
  obtain ⟨k2, k3, k4⟩ := k2
  have e1 : (-(1 / 4) : ℂ) = -5 / 4 + 1 := by norm_num
  have e2 : (-1 / 4 : ℂ) = -5 / 4 + 1 := by norm_num
  have e3 : (5 / 4 : ℂ) = -(-5 / 4) := by norm_num
  have e4 : (-9 / 4 : ℂ) = -5 / 4 - 1 := by norm_num
  have e5 : (-(5 / 4) : ℂ) = -5 / 4 := by norm_num
  rw [k1, k4, e5, e1, e2, e3, e4, cpow_down k2, cpow_up k3, Complex.cpow_neg, Complex.cpow_neg]
  have n1 : (a + b * z) ^ (-5 / 4 : ℂ) ≠ 0 := fun h => k2 ((Complex.cpow_eq_zero_iff _ _).1 h).1
  have n2 : (c + d * z) ^ (-5 / 4 : ℂ) ≠ 0 := fun h => k3 ((Complex.cpow_eq_zero_iff _ _).1 h).1
  generalize (a + b * z) ^ (-5 / 4 : ℂ) = P at n1 ⊢
  generalize (c + d * z) ^ (-5 / 4 : ℂ) = Q at n2 ⊢
  generalize eA : a + b * z = A at k2 ⊢
  generalize eB : c + d * z = B at k3 ⊢
  field_simp
  subst eA eB
  ring

theorem calc_bothUp : CalcOk intBothUp := by
  intro I T F G hS hc hT hF hG
  have ht : tmpl (templateOf intBothUp.integrand) = true := by decide +kernel
  obtain ⟨a, b, c, d, ha, hb, hcc, hd⟩ := leaf4 ht hG hc (by decide +kernel)
  obtain ⟨km, hkm⟩ := leaf_mostly ht hG (y := "m") (by decide +kernel)
  obtain ⟨kn, hkn⟩ := leaf_mostly ht hG (y := "n") (by decide +kernel)
  have e : templateOf intBothUp.integrand = mul [pow (Shipped.linear "a" "b") (var "m"), pow (Shipped.linear "c" "d") (var "n")] := by decide +kernel
  rw [e] at hG ht
  simp only [den_sem' ht] at hG
  have hE := opp_values hS (hT opposite (by simp [intBothUp])) ha hb hcc hd
  obtain ⟨jm, him⟩ := hS.integer _ (by decide +kernel) (hT (call "IntegerQ" [add [var "m", quot 1 2]]) (by simp [intBothUp]))
  obtain ⟨m, hm⟩ : ∃ m : ℂ, m + 1 / 2 = jm := ⟨jm - 1 / 2, by ring⟩
  have qm : ∀ᶠ z in mostly, (I z).Denotes (var "m") m := by
    filter_upwards [hkm] with z k
    have := him z (km z + 1 / 2) ((den_sem' (by decide +kernel)).2 (by sem_simp [leaf_iff k]; norm_num))
    rwa [show m = km z from by linear_combination hm - this]
  clear hkm
  obtain ⟨jn, hin⟩ := hS.integer _ (by decide +kernel) (hT (call "IntegerQ" [add [var "n", quot 1 2]]) (by simp [intBothUp]))
  obtain ⟨n, hn⟩ : ∃ n : ℂ, n + 1 / 2 = jn := ⟨jn - 1 / 2, by ring⟩
  have qn : ∀ᶠ z in mostly, (I z).Denotes (var "n") n := by
    filter_upwards [hkn] with z k
    have := hin z (kn z + 1 / 2) ((den_sem' (by decide +kernel)).2 (by sem_simp [leaf_iff k]; norm_num))
    rwa [show n = kn z from by linear_combination hn - this]
  clear hkn
  obtain ⟨X, Y, h1, h2, h3⟩ := reads_add2 (by decide) (by decide) hF
  obtain ⟨K, H, h4, h5, h6⟩ := reads_mul2 (by decide) (by decide) h2
  obtain ⟨-, g, h7, h8⟩ := reads_int h5
  replace h1 := tmpl_reads (by decide +kernel) (by decide +kernel) h1
  replace h4 := tmpl_reads (by decide +kernel) (by decide +kernel) h4
  replace h7 := tmpl_reads (by decide +kernel) (by decide +kernel) h7
  have hX : ∀ᶠ z in mostly, b * (m + (n + 1)) ≠ 0 ∧ X z = (a + b * z) ^ (m + 1) * (c + d * z) ^ n / (b * (m + (n + 1))) := by
    filter_upwards [h1, qm, qn] with z k1 rm rn
    sem_simp [leaf_iff (ha _), leaf_iff (hb _), leaf_iff (hcc _), leaf_iff (hd _), leaf_iff (hS.var _), leaf_iff rm, leaf_iff rn] at k1
    exact ⟨k1.2.2.1, k1.2.2.2⟩
  have hK : ∀ᶠ z in mostly, K z = 2 * (c * n) / (m + (n + 1)) := by
    filter_upwards [h4, qm, qn] with z k1 rm rn
    sem_simp [leaf_iff (ha _), leaf_iff (hb _), leaf_iff (hcc _), leaf_iff (hd _), leaf_iff (hS.var _), leaf_iff rm, leaf_iff rn] at k1
    exact k1.2
  have hg : ∀ᶠ z in mostly, g z = (a + b * z) ^ m * (c + d * z) ^ (n - 1) := by
    filter_upwards [h7, qm, qn] with z k1 rm rn
    sem_simp [leaf_iff (ha _), leaf_iff (hb _), leaf_iff (hcc _), leaf_iff (hd _), leaf_iff (hS.var _), leaf_iff rm, leaf_iff rn] at k1
    exact k1.2.2
  have hG' : ∀ᶠ z in mostly, G z = (a + b * z) ^ m * (c + d * z) ^ n := by
    filter_upwards [hG, qm, qn] with z k1 rm rn
    sem_simp [leaf_iff (ha _), leaf_iff (hb _), leaf_iff (hcc _), leaf_iff (hd _), leaf_iff (hS.var _), leaf_iff rm, leaf_iff rn] at k1
    exact k1.2.2
  obtain ⟨z0, hz0⟩ := hX.exists
  have hb0 := left_ne_zero_of_mul hz0.1
  have hs0 := right_ne_zero_of_mul hz0.1
  have hn0 := half_ne hn
  have hFF : F =ᶠ[mostly] fun z => (a + b * z) ^ (m + 1) * (c + d * z) ^ n / (b * (m + (n + 1))) + 2 * (c * n) / (m + (n + 1)) * H z := by
    filter_upwards [h3, h6, hX, hK] with z k1 k2 k3 k4
    rw [k1, k2, k3.2, k4]
  by_cases hB : c ≠ 0 ∨ d ≠ 0
  · refine hasDeriv_int hFF ((deriv_two (m + 1) n (.inr hb0) hB).mono fun z h => h.div_const _) h8 ?_
    filter_upwards [hg, hG', linear_ne a b (.inr hb0), linear_ne c d hB] with z k1 k2 k3 k4
    rw [k1, k2, cpow_up k3, cpow_down k4]
    generalize (a + b * z) ^ m = P
    generalize (c + d * z) ^ n = Q
    generalize eA : a + b * z = A at k3 ⊢
    generalize eB : c + d * z = B at k4 ⊢
    generalize eK : m + (n + 1) = S at hs0 ⊢
    field_simp
    subst eA eB eK
    linear_combination P * Q * n * hE
  · push Not at hB
    obtain ⟨rfl, rfl⟩ := hB
    refine hasDeriv_congr (hFF.trans (.of_forall fun z => ?_)) (.of_forall fun z => hasDerivAt_const z (0 : ℂ)) (hG'.mono fun z k => ?_)
    · simp [Complex.zero_cpow hn0]
    · rw [k]; simp [Complex.zero_cpow hn0]

theorem calc_bothDown : CalcOk intBothDown := by
  intro I T F G hS hc hT hF hG
  have ht : tmpl (templateOf intBothDown.integrand) = true := by decide +kernel
  obtain ⟨a, b, c, d, ha, hb, hcc, hd⟩ := leaf4 ht hG hc (by decide +kernel)
  obtain ⟨km, hkm⟩ := leaf_mostly ht hG (y := "m") (by decide +kernel)
  obtain ⟨kn, hkn⟩ := leaf_mostly ht hG (y := "n") (by decide +kernel)
  have e : templateOf intBothDown.integrand = mul [pow (Shipped.linear "a" "b") (var "m"), pow (Shipped.linear "c" "d") (var "n")] := by decide +kernel
  rw [e] at hG ht
  simp only [den_sem' ht] at hG
  have hE := opp_values hS (hT opposite (by simp [intBothDown])) ha hb hcc hd
  obtain ⟨jm, him⟩ := hS.integer _ (by decide +kernel) (hT (call "IntegerQ" [add [var "m", quot 1 2]]) (by simp [intBothDown]))
  obtain ⟨m, hm⟩ : ∃ m : ℂ, m + 1 / 2 = jm := ⟨jm - 1 / 2, by ring⟩
  have qm : ∀ᶠ z in mostly, (I z).Denotes (var "m") m := by
    filter_upwards [hkm] with z k
    have := him z (km z + 1 / 2) ((den_sem' (by decide +kernel)).2 (by sem_simp [leaf_iff k]; norm_num))
    rwa [show m = km z from by linear_combination hm - this]
  clear hkm
  obtain ⟨jn, hin⟩ := hS.integer _ (by decide +kernel) (hT (call "IntegerQ" [add [var "n", quot 1 2]]) (by simp [intBothDown]))
  obtain ⟨n, hn⟩ : ∃ n : ℂ, n + 1 / 2 = jn := ⟨jn - 1 / 2, by ring⟩
  have qn : ∀ᶠ z in mostly, (I z).Denotes (var "n") n := by
    filter_upwards [hkn] with z k
    have := hin z (kn z + 1 / 2) ((den_sem' (by decide +kernel)).2 (by sem_simp [leaf_iff k]; norm_num))
    rwa [show n = kn z from by linear_combination hn - this]
  clear hkn
  obtain ⟨X, Y, h1, h2, h3⟩ := reads_add2 (by decide) (by decide) hF
  obtain ⟨K, H, h4, h5, h6⟩ := reads_mul2 (by decide) (by decide) h2
  obtain ⟨-, g, h7, h8⟩ := reads_int h5
  replace h1 := tmpl_reads (by decide +kernel) (by decide +kernel) h1
  replace h4 := tmpl_reads (by decide +kernel) (by decide +kernel) h4
  replace h7 := tmpl_reads (by decide +kernel) (by decide +kernel) h7
  have hX : ∀ᶠ z in mostly, 2 * (a * (d * (m + 1))) ≠ 0 ∧ X z = -1 * ((a + b * z) ^ (m + 1) * (c + d * z) ^ (n + 1)) / (2 * (a * (d * (m + 1)))) := by
    filter_upwards [h1, qm, qn] with z k1 rm rn
    sem_simp [leaf_iff (ha _), leaf_iff (hb _), leaf_iff (hcc _), leaf_iff (hd _), leaf_iff (hS.var _), leaf_iff rm, leaf_iff rn] at k1
    exact ⟨k1.2.2.1, k1.2.2.2⟩
  have hK : ∀ᶠ z in mostly, K z = (m + (n + 2)) / (2 * (a * (m + 1))) := by
    filter_upwards [h4, qm, qn] with z k1 rm rn
    sem_simp [leaf_iff (ha _), leaf_iff (hb _), leaf_iff (hcc _), leaf_iff (hd _), leaf_iff (hS.var _), leaf_iff rm, leaf_iff rn] at k1
    exact k1.2
  have hg : ∀ᶠ z in mostly, g z = (a + b * z) ^ (m + 1) * (c + d * z) ^ n := by
    filter_upwards [h7, qm, qn] with z k1 rm rn
    sem_simp [leaf_iff (ha _), leaf_iff (hb _), leaf_iff (hcc _), leaf_iff (hd _), leaf_iff (hS.var _), leaf_iff rm, leaf_iff rn] at k1
    exact k1.2.2
  have hG' : ∀ᶠ z in mostly, G z = (a + b * z) ^ m * (c + d * z) ^ n := by
    filter_upwards [hG, qm, qn] with z k1 rm rn
    sem_simp [leaf_iff (ha _), leaf_iff (hb _), leaf_iff (hcc _), leaf_iff (hd _), leaf_iff (hS.var _), leaf_iff rm, leaf_iff rn] at k1
    exact k1.2.2
  obtain ⟨z0, hz0⟩ := hX.exists
  have ha0 := left_ne_zero_of_mul (right_ne_zero_of_mul hz0.1)
  have hd0 := left_ne_zero_of_mul (right_ne_zero_of_mul (right_ne_zero_of_mul hz0.1))
  have hm0 := right_ne_zero_of_mul (right_ne_zero_of_mul (right_ne_zero_of_mul hz0.1))
  have hFF : F =ᶠ[mostly] fun z => -1 * ((a + b * z) ^ (m + 1) * (c + d * z) ^ (n + 1)) / (2 * (a * (d * (m + 1)))) + (m + (n + 2)) / (2 * (a * (m + 1))) * H z := by
    filter_upwards [h3, h6, hX, hK] with z k1 k2 k3 k4
    rw [k1, k2, k3.2, k4]
  refine hasDeriv_int hFF ((deriv_two (m + 1) (n + 1) (.inl ha0) (.inr hd0)).mono fun z h => (h.const_mul _).div_const _) h8 ?_
  filter_upwards [hg, hG', linear_ne a b (.inl ha0), linear_ne c d (.inr hd0)] with z k1 k2 k3 k4
  rw [k1, k2, cpow_up k3, cpow_up k4]
  generalize (a + b * z) ^ m = P
  generalize (c + d * z) ^ n = Q
  generalize eA : a + b * z = A at k3 ⊢
  generalize eB : c + d * z = B at k4 ⊢
  generalize eM : m + 1 = M at hm0 ⊢
  obtain rfl : m = M - 1 := by rw [← eM]; ring
  field_simp
  subst eA eB
  linear_combination -(P * Q * M) * hE

theorem calc_expandPos : CalcOk intExpandPos := by
  intro I T F G hS hc hT hF hG
  obtain ⟨-, g, h1, h2⟩ := reads_int hF
  obtain ⟨-, h3⟩ := reads_expand h1
  have h4 := reads_closed (by decide +kernel) h3
  have e : templateOf intExpandPos.integrand = mul [pow (Shipped.linear "a" "b") (var "m"), pow (Shipped.linear "c" "d") (var "n")] := by decide +kernel
  rw [e] at hG
  refine hasDeriv_congr .rfl h2 ?_
  filter_upwards [h4, hG] with z k1 k2
  exact den_unique k1 k2

theorem calc_expandNeg : CalcOk intExpandNeg := by
  intro I T F G hS hc hT hF hG
  obtain ⟨-, g, h1, h2⟩ := reads_int hF
  obtain ⟨-, h3⟩ := reads_expand h1
  have h4 := reads_closed (by decide +kernel) h3
  have e : templateOf intExpandNeg.integrand = mul [pow (Shipped.linear "a" "b") (var "m"), pow (Shipped.linear "c" "d") (var "n")] := by decide +kernel
  rw [e] at hG
  refine hasDeriv_congr .rfl h2 ?_
  filter_upwards [h4, hG] with z k1 k2
  exact den_unique k1 k2

theorem calc_quotUp : CalcOk intQuotUp := by
  intro I T F G hS hc hT hF hG
  have ht : tmpl (templateOf intQuotUp.integrand) = true := by decide +kernel
  obtain ⟨a, b, c, d, ha, hb, hcc, hd⟩ := leaf4 ht hG hc (by decide +kernel)
  obtain ⟨kn, hkn⟩ := leaf_mostly ht hG (y := "n") (by decide +kernel)
  have e : templateOf intQuotUp.integrand = mul [pow (Shipped.linear "c" "d") (var "n"), pow (Shipped.linear "a" "b") (.int (-1))] := by decide +kernel
  rw [e] at hG ht
  simp only [den_sem' ht] at hG
  obtain ⟨jn, hin⟩ := hS.rational _ (by decide +kernel) (hT (testR "RationalQ" [var "n"]) (by simp [intQuotUp]))
  obtain ⟨n, hn⟩ : ∃ n : ℂ, n = jn := ⟨jn, rfl⟩
  have qn : ∀ᶠ z in mostly, (I z).Denotes (var "n") n := by
    filter_upwards [hkn] with z k
    rwa [hn, ← hin z _ k]
  clear hkn
  obtain ⟨X, Y, h1, h2, h3⟩ := reads_add2 (by decide) (by decide) hF
  obtain ⟨K, H, h4, h5, h6⟩ := reads_mul2 (by decide) (by decide) h2
  obtain ⟨-, g, h7, h8⟩ := reads_int h5
  replace h1 := tmpl_reads (by decide +kernel) (by decide +kernel) h1
  replace h4 := tmpl_reads (by decide +kernel) (by decide +kernel) h4
  replace h7 := tmpl_reads (by decide +kernel) (by decide +kernel) h7
  have hX : ∀ᶠ z in mostly, b * n ≠ 0 ∧ X z = (c + d * z) ^ n / (b * n) := by
    filter_upwards [h1, qn] with z k1 rn
    sem_simp [leaf_iff (ha _), leaf_iff (hb _), leaf_iff (hcc _), leaf_iff (hd _), leaf_iff (hS.var _), leaf_iff rn] at k1
    exact ⟨k1.2.1, k1.2.2⟩
  have hK : ∀ᶠ z in mostly, K z = (b * c - a * d) / b := by
    filter_upwards [h4, qn] with z k1 rn
    sem_simp [leaf_iff (ha _), leaf_iff (hb _), leaf_iff (hcc _), leaf_iff (hd _), leaf_iff (hS.var _), leaf_iff rn] at k1
    exact k1.2
  have hg : ∀ᶠ z in mostly, g z = (c + d * z) ^ (n - 1) / (a + b * z) := by
    filter_upwards [h7, qn] with z k1 rn
    sem_simp [leaf_iff (ha _), leaf_iff (hb _), leaf_iff (hcc _), leaf_iff (hd _), leaf_iff (hS.var _), leaf_iff rn] at k1
    exact k1.2.2
  have hG' : ∀ᶠ z in mostly, a + b * z ≠ 0 ∧ G z = (c + d * z) ^ n * (a + b * z)⁻¹ := by
    filter_upwards [hG, qn] with z k1 rn
    sem_simp [leaf_iff (ha _), leaf_iff (hb _), leaf_iff (hcc _), leaf_iff (hd _), leaf_iff (hS.var _), leaf_iff rn] at k1
    exact ⟨ne_neg1 k1.2.1, by rw [k1.2.2, Complex.cpow_neg_one]⟩
  obtain ⟨z0, hz0⟩ := hX.exists
  have hb0 := left_ne_zero_of_mul hz0.1
  have hn0 := right_ne_zero_of_mul hz0.1
  have hFF : F =ᶠ[mostly] fun z => (c + d * z) ^ n / (b * n) + (b * c - a * d) / b * H z := by
    filter_upwards [h3, h6, hX, hK] with z k1 k2 k3 k4
    rw [k1, k2, k3.2, k4]
  by_cases hB : c ≠ 0 ∨ d ≠ 0
  · refine hasDeriv_int hFF ((deriv_linPow n hB).mono fun z h => h.div_const _) h8 ?_
    filter_upwards [hg, hG', linear_ne c d hB] with z k1 k2 k4
    obtain ⟨k3, k2⟩ := k2
    rw [k1, k2, cpow_down k4]
    generalize (c + d * z) ^ n = Q
    generalize eA : a + b * z = A at k3 ⊢
    generalize eB : c + d * z = B at k4 ⊢
    field_simp
    subst eA eB
    ring
  · push Not at hB
    obtain ⟨rfl, rfl⟩ := hB
    refine hasDeriv_congr (hFF.trans (.of_forall fun z => ?_)) (.of_forall fun z => hasDerivAt_const z (0 : ℂ)) (hG'.mono fun z k => ?_)
    · simp [Complex.zero_cpow hn0]
    · rw [k.2]; simp [Complex.zero_cpow hn0]

theorem calc_quotDown : CalcOk intQuotDown := by
  intro I T F G hS hc hT hF hG
  have ht : tmpl (templateOf intQuotDown.integrand) = true := by decide +kernel
  obtain ⟨a, b, c, d, ha, hb, hcc, hd⟩ := leaf4 ht hG hc (by decide +kernel)
  obtain ⟨kn, hkn⟩ := leaf_mostly ht hG (y := "n") (by decide +kernel)
  have e : templateOf intQuotDown.integrand = mul [pow (Shipped.linear "c" "d") (var "n"), pow (Shipped.linear "a" "b") (.int (-1))] := by decide +kernel
  rw [e] at hG ht
  simp only [den_sem' ht] at hG
  obtain ⟨jn, hin⟩ := hS.rational _ (by decide +kernel) (hT (testR "RationalQ" [var "n"]) (by simp [intQuotDown]))
  obtain ⟨n, hn⟩ : ∃ n : ℂ, n = jn := ⟨jn, rfl⟩
  have qn : ∀ᶠ z in mostly, (I z).Denotes (var "n") n := by
    filter_upwards [hkn] with z k
    rwa [hn, ← hin z _ k]
  clear hkn
  obtain ⟨X, Y, h1, h2, h3⟩ := reads_add2 (by decide) (by decide) hF
  obtain ⟨K, H, h4, h5, h6⟩ := reads_mul2 (by decide) (by decide) h2
  obtain ⟨-, g, h7, h8⟩ := reads_int h5
  replace h1 := tmpl_reads (by decide +kernel) (by decide +kernel) h1
  replace h4 := tmpl_reads (by decide +kernel) (by decide +kernel) h4
  replace h7 := tmpl_reads (by decide +kernel) (by decide +kernel) h7
  have hX : ∀ᶠ z in mostly, (n + 1) * (b * c - a * d) ≠ 0 ∧ X z = -1 * (c + d * z) ^ (n + 1) / ((n + 1) * (b * c - a * d)) := by
    filter_upwards [h1, qn] with z k1 rn
    sem_simp [leaf_iff (ha _), leaf_iff (hb _), leaf_iff (hcc _), leaf_iff (hd _), leaf_iff (hS.var _), leaf_iff rn] at k1
    exact ⟨k1.2.1, k1.2.2⟩
  have hK : ∀ᶠ z in mostly, K z = b * (n + 1) / ((n + 1) * (b * c - a * d)) := by
    filter_upwards [h4, qn] with z k1 rn
    sem_simp [leaf_iff (ha _), leaf_iff (hb _), leaf_iff (hcc _), leaf_iff (hd _), leaf_iff (hS.var _), leaf_iff rn] at k1
    exact k1.2
  have hg : ∀ᶠ z in mostly, g z = (c + d * z) ^ (n + 1) / (a + b * z) := by
    filter_upwards [h7, qn] with z k1 rn
    sem_simp [leaf_iff (ha _), leaf_iff (hb _), leaf_iff (hcc _), leaf_iff (hd _), leaf_iff (hS.var _), leaf_iff rn] at k1
    exact k1.2.2
  have hG' : ∀ᶠ z in mostly, a + b * z ≠ 0 ∧ G z = (c + d * z) ^ n * (a + b * z)⁻¹ := by
    filter_upwards [hG, qn] with z k1 rn
    sem_simp [leaf_iff (ha _), leaf_iff (hb _), leaf_iff (hcc _), leaf_iff (hd _), leaf_iff (hS.var _), leaf_iff rn] at k1
    exact ⟨ne_neg1 k1.2.1, by rw [k1.2.2, Complex.cpow_neg_one]⟩
  obtain ⟨z0, hz0⟩ := hX.exists
  have hn0 := left_ne_zero_of_mul hz0.1
  have hK0 := right_ne_zero_of_mul hz0.1
  have hB : c ≠ 0 ∨ d ≠ 0 := by
    by_contra h
    push Not at h
    exact hK0 (by rw [h.1, h.2]; ring)
  have hFF : F =ᶠ[mostly] fun z => -1 * (c + d * z) ^ (n + 1) / ((n + 1) * (b * c - a * d)) + b * (n + 1) / ((n + 1) * (b * c - a * d)) * H z := by
    filter_upwards [h3, h6, hX, hK] with z k1 k2 k3 k4
    rw [k1, k2, k3.2, k4]
  refine hasDeriv_int hFF ((deriv_linPow (n + 1) hB).mono fun z h => (h.const_mul _).div_const _) h8 ?_
  filter_upwards [hg, hG', linear_ne c d hB] with z k1 k2 k4
  obtain ⟨k3, k2⟩ := k2
  rw [k1, k2, cpow_up k4]
  generalize (c + d * z) ^ n = Q
  generalize eA : a + b * z = A at k3 ⊢
  generalize eB : c + d * z = B at k4 ⊢
  generalize eK : b * c - a * d = L at hK0 ⊢
  generalize eM : n + 1 = M at hn0 ⊢
  field_simp
  subst eA eB eK
  ring

end Expreduce
