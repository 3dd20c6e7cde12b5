import Verif.Proofs.IntCalc

/-! The derivatives of the right sides of the rules that simplify the integrand. -/

namespace Expreduce
open Ex Shipped Filter Topology

/-! ### Powers of products -/

theorem cpow_mul_arg {x y m : ℂ} (hx : x ≠ 0) (hy : y ≠ 0) (h : x.arg + y.arg ∈ Set.Ioc (-Real.pi) Real.pi) : (x * y) ^ m = x ^ m * y ^ m := by
  rw [Complex.cpow_def_of_ne_zero (mul_ne_zero hx hy), Complex.cpow_def_of_ne_zero hx, Complex.cpow_def_of_ne_zero hy, Complex.log_mul hx hy h, ← Complex.exp_add]
  congr 1
  ring

theorem cpow_mul_int (x y : ℂ) (n : Int) : (x * y) ^ (n : ℂ) = x ^ (n : ℂ) * y ^ (n : ℂ) := by
  rw [Complex.cpow_intCast, Complex.cpow_intCast, Complex.cpow_intCast, mul_zpow]

theorem mostly_linear {a b : ℂ} (hb : b ≠ 0) {p : ℂ → Prop} (h : ∀ᶠ z in mostly, p z) : ∀ᶠ z in mostly, p (a + b * z) := by
  have hf : IsOpenMap (fun z : ℂ => a + b * z) := ((Homeomorph.mulLeft₀ b hb).trans (Homeomorph.addLeft a)).isOpenMap
  have hcont : Continuous (fun z : ℂ => a + b * z) := by fun_prop
  have hd : Dense (interior {z | p z}) := h
  have : Dense (interior {z | p (a + b * z)}) := (hd.preimage hf).mono (preimage_interior_subset_interior_preimage hcont)
  exact this

theorem mostly_im {a b : ℂ} (hb : b ≠ 0) : ∀ᶠ z in mostly, (a + b * z).im ≠ 0 := by
  filter_upwards [mostly_linear (a := a) hb mostly_slit, mostly_linear (a := -a) (neg_ne_zero.2 hb) mostly_slit] with z h1 h2 h0
  rw [Complex.mem_slitPlane_iff] at h1 h2
  have e : -a + -b * z = -(a + b * z) := by ring
  rw [e, Complex.neg_re, Complex.neg_im, h0] at h2
  rw [h0] at h1
  rcases h1 with h1 | h1
  · rcases h2 with h2 | h2
    · linarith
    · simp at h2
  · simp at h1

theorem opp_arg {x y : ℂ} {r : ℝ} (hr : 0 < r) (hx : x.im ≠ 0) (h : y.im = -(r * x.im)) : x.arg + y.arg ∈ Set.Ioc (-Real.pi) Real.pi := by
  rcases lt_or_gt_of_ne hx with h1 | h1
  · have h2 : 0 ≤ y.im := by rw [h]; nlinarith
    have a1 : x.arg < 0 := Complex.arg_neg_iff.2 h1
    have a2 : 0 ≤ y.arg := Complex.arg_nonneg_iff.2 h2
    have a3 := Complex.neg_pi_lt_arg x
    have a4 := Complex.arg_le_pi y
    exact ⟨by linarith, by linarith⟩
  · have h2 : y.im < 0 := by rw [h]; nlinarith
    have a1 : 0 ≤ x.arg := Complex.arg_nonneg_iff.2 h1.le
    have a2 : y.arg < 0 := Complex.arg_neg_iff.2 h2
    have a3 := Complex.arg_le_pi x
    have a4 := Complex.neg_pi_lt_arg y
    exact ⟨by linarith, by linarith⟩

theorem merge_pos {a c : ℝ} (ha : 0 < a) (hc : 0 < c) {b d : ℂ} (hE : b * c + a * d = 0) (m : ℂ) :
    ∀ᶠ z : ℂ in mostly, ((a + b * z) * (c + d * z)) ^ m = (a + b * z) ^ m * (c + d * z) ^ m := by
  have ha0 : (a : ℂ) ≠ 0 := by exact_mod_cast ha.ne'
  have hc0 : (c : ℂ) ≠ 0 := by exact_mod_cast hc.ne'
  have hd : d = -((c / a : ℝ) : ℂ) * b := by
    push_cast
    field_simp
    linear_combination hE
  by_cases hb : b = 0
  · refine .of_forall fun z => ?_
    have hd0 : d = 0 := by rw [hd, hb, mul_zero]
    rw [hb, hd0]
    simp only [zero_mul, add_zero]
    exact Complex.mul_cpow_ofReal_nonneg ha.le hc.le m
  · filter_upwards [mostly_im (a := (a : ℂ)) hb, linear_ne (a : ℂ) b (.inl ha0), linear_ne (c : ℂ) d (.inl hc0)] with z h1 h2 h3
    refine cpow_mul_arg h2 h3 (opp_arg (div_pos hc ha) h1 ?_)
    rw [hd, mul_assoc, ← neg_mul_eq_neg_mul]
    simp only [Complex.add_im, Complex.neg_im, Complex.ofReal_im, Complex.re_ofReal_mul, Complex.im_ofReal_mul, zero_add]

theorem calc_sameMerge : CalcOk intSameMerge := by
  intro I T F G hS hc hT hF hG
  have ht : tmpl (templateOf intSameMerge.integrand) = true := by decide +kernel
  obtain ⟨a, b, c, d, ha, hb, hcc, hd⟩ := leaf4 ht hG hc (by decide +kernel)
  obtain ⟨m, hm⟩ := leaf_const ht hG (y := "m") (by decide +kernel) (hc _ (by decide))
  have e : templateOf intSameMerge.integrand = mul [pow (Shipped.linear "a" "b") (var "m"), pow (Shipped.linear "c" "d") (var "m")] := by decide +kernel
  rw [e] at hG ht
  simp only [den_sem' ht] at hG
  have hE := opp_values hS (hT opposite (by simp [intSameMerge])) ha hb hcc hd
  sem_simp [leaf_iff (ha _), leaf_iff (hb _), leaf_iff (hcc _), leaf_iff (hd _), leaf_iff (hS.var _), leaf_iff (hm _)] at hG
  obtain ⟨-, g, h1, h2⟩ := reads_int hF
  have h1' := tmpl_reads (by decide +kernel) (by decide +kernel) h1
  sem_simp [leaf_iff (ha _), leaf_iff (hb _), leaf_iff (hcc _), leaf_iff (hd _), leaf_iff (hS.var _), leaf_iff (hm _)] at h1'
  refine hasDeriv_congr .rfl h2 ?_
  have key : ∀ᶠ z in mostly, ((a + b * z) * (c + d * z)) ^ m = (a + b * z) ^ m * (c + d * z) ^ m := by
    obtain ⟨t, ht', hTt⟩ := hS.some _ (hT (call "Or" [call "IntegerQ" [var "m"], call "And" [testR "PositiveQ" [var "a"], testR "PositiveQ" [var "c"]]]) (by simp [intSameMerge]))
    simp only [List.mem_cons, List.not_mem_nil, or_false] at ht'
    rcases ht' with rfl | rfl
    · obtain ⟨n, hn⟩ := hS.integer _ (by decide +kernel) hTt
      rw [hn 0 m (hm 0)]
      exact .of_forall fun z => cpow_mul_int _ _ n
    · have h3 := hS.all _ hTt
      obtain ⟨a', ha0, ha1⟩ := hS.positive _ (by decide +kernel) (h3 (testR "PositiveQ" [var "a"]) (by simp))
      obtain ⟨c', hc0, hc1⟩ := hS.positive _ (by decide +kernel) (h3 (testR "PositiveQ" [var "c"]) (by simp))
      rw [ha1 0 a (ha 0), hc1 0 c (hcc 0)] at hE ⊢
      exact merge_pos ha0 hc0 hE m
  filter_upwards [h1', hG, key] with z k1 k2 k3
  rw [k1.2, k2.2.2, ← k3]
  congr 1
  linear_combination -z * hE

theorem calc_zeroConst : CalcOk intZeroConst := by
  intro I T F G hS hc hT hF hG
  have ht : tmpl (templateOf intZeroConst.integrand) = true := by decide +kernel
  obtain ⟨a, ha⟩ := leaf_const ht hG (y := "a") (by decide +kernel) (hc _ (by decide))
  obtain ⟨b, hb⟩ := leaf_const ht hG (y := "b") (by decide +kernel) (hc _ (by decide))
  obtain ⟨n, hn⟩ := leaf_const ht hG (y := "n") (by decide +kernel) (hc _ (by decide))
  obtain ⟨p, hp⟩ := leaf_const ht hG (y := "p") (by decide +kernel) (hc _ (by decide))
  obtain ⟨ku, hku⟩ := leaf_mostly ht hG (y := "u") (by decide +kernel)
  have e : templateOf intZeroConst.integrand = mul [var "u", pow (add [var "a", mul [var "b", pow (var "x") (var "n")]]) (var "p")] := by decide +kernel
  rw [e] at hG ht
  simp only [den_sem' ht] at hG
  have ha0 := hS.zero _ (by decide +kernel) (hT (eqQ0 (var "a")) (by simp [intZeroConst])) 0 a (ha 0)
  obtain ⟨-, g, h1, h2⟩ := reads_int hF
  replace h1 := tmpl_reads (by decide +kernel) (by decide +kernel) h1
  refine hasDeriv_congr .rfl h2 ?_
  filter_upwards [h1, hG, hku] with z k1 k2 ru
  sem_simp [leaf_iff (ha _), leaf_iff (hb _), leaf_iff (hn _), leaf_iff (hp _), leaf_iff (hS.var _), leaf_iff ru] at k1
  sem_simp [leaf_iff (ha _), leaf_iff (hb _), leaf_iff (hn _), leaf_iff (hp _), leaf_iff (hS.var _), leaf_iff ru] at k2
  rw [k1.2.2, k2.2.2, ha0, zero_add]

theorem calc_zeroCoef : CalcOk intZeroCoef := by
  intro I T F G hS hc hT hF hG
  have ht : tmpl (templateOf intZeroCoef.integrand) = true := by decide +kernel
  obtain ⟨a, ha⟩ := leaf_const ht hG (y := "a") (by decide +kernel) (hc _ (by decide))
  obtain ⟨b, hb⟩ := leaf_const ht hG (y := "b") (by decide +kernel) (hc _ (by decide))
  obtain ⟨n, hn⟩ := leaf_const ht hG (y := "n") (by decide +kernel) (hc _ (by decide))
  obtain ⟨p, hp⟩ := leaf_const ht hG (y := "p") (by decide +kernel) (hc _ (by decide))
  obtain ⟨ku, hku⟩ := leaf_mostly ht hG (y := "u") (by decide +kernel)
  have e : templateOf intZeroCoef.integrand = mul [var "u", pow (add [var "a", mul [var "b", pow (var "x") (var "n")]]) (var "p")] := by decide +kernel
  rw [e] at hG ht
  simp only [den_sem' ht] at hG
  have hb0 := hS.zero _ (by decide +kernel) (hT (eqQ0 (var "b")) (by simp [intZeroCoef])) 0 b (hb 0)
  obtain ⟨-, g, h1, h2⟩ := reads_int hF
  replace h1 := tmpl_reads (by decide +kernel) (by decide +kernel) h1
  refine hasDeriv_congr .rfl h2 ?_
  filter_upwards [h1, hG, hku] with z k1 k2 ru
  sem_simp [leaf_iff (ha _), leaf_iff (hb _), leaf_iff (hn _), leaf_iff (hp _), leaf_iff (hS.var _), leaf_iff ru] at k1
  sem_simp [leaf_iff (ha _), leaf_iff (hb _), leaf_iff (hn _), leaf_iff (hp _), leaf_iff (hS.var _), leaf_iff ru] at k2
  rw [k1.2, k2.2.2, hb0, zero_mul, add_zero]

theorem calc_collect : CalcOk intCollect := by
  intro I T F G hS hc hT hF hG
  have ht : tmpl (templateOf intCollect.integrand) = true := by decide +kernel
  obtain ⟨a, ha⟩ := leaf_const ht hG (y := "a") (by decide +kernel) (hc _ (by decide))
  obtain ⟨b, hb⟩ := leaf_const ht hG (y := "b") (by decide +kernel) (hc _ (by decide))
  obtain ⟨ku, hku⟩ := leaf_mostly ht hG (y := "u") (by decide +kernel)
  obtain ⟨kv, hkv⟩ := leaf_mostly ht hG (y := "v") (by decide +kernel)
  obtain ⟨kw, hkw⟩ := leaf_mostly ht hG (y := "w") (by decide +kernel)
  obtain ⟨kp, hkp⟩ := leaf_mostly ht hG (y := "p") (by decide +kernel)
  have e : templateOf intCollect.integrand = mul [var "u", pow (add [mul [var "a", var "v"], mul [var "b", var "v"], var "w"]) (var "p")] := by decide +kernel
  rw [e] at hG ht
  simp only [den_sem' ht] at hG
  obtain ⟨-, g, h1, h2⟩ := reads_int hF
  replace h1 := tmpl_reads (by decide +kernel) (by decide +kernel) h1
  refine hasDeriv_congr .rfl h2 ?_
  filter_upwards [h1, hG, hku, hkv, hkw, hkp] with z k1 k2 ru rv rw' rp
  sem_simp [leaf_iff (ha _), leaf_iff (hb _), leaf_iff (hS.var _), leaf_iff ru, leaf_iff rv, leaf_iff rw', leaf_iff rp] at k1
  sem_simp [leaf_iff (ha _), leaf_iff (hb _), leaf_iff (hS.var _), leaf_iff ru, leaf_iff rv, leaf_iff rw', leaf_iff rp] at k2
  rw [k1.2, k2.2, add_mul, add_assoc]

theorem calc_const : CalcOk intConst := by
  intro I T F G hS hc hT hF hG
  have ht : tmpl (templateOf intConst.integrand) = true := by decide +kernel
  obtain ⟨a, ha⟩ := leaf_const ht hG (y := "a") (by decide +kernel) (hc _ (by decide))
  have e : templateOf intConst.integrand = var "a" := by decide +kernel
  rw [e] at hG ht
  simp only [den_sem' ht] at hG
  have h1 := tmpl_reads (by decide +kernel) (by decide +kernel) hF
  simp only [intConst] at h1
  sem_simp [leaf_iff (ha _), leaf_iff (hS.var _)] at h1
  sem_simp [leaf_iff (ha _), leaf_iff (hS.var _)] at hG
  refine hasDeriv_congr h1 (.of_forall fun z => (hasDerivAt_id z).const_mul a) ?_
  filter_upwards [hG] with z k
  rw [k, mul_one]

theorem calc_scaled : CalcOk intScaled := by
  intro I T F G hS hc hT hF hG
  have ht : tmpl (templateOf intScaled.integrand) = true := by decide +kernel
  obtain ⟨a, ha⟩ := leaf_const ht hG (y := "a") (by decide +kernel) (hc _ (by decide))
  obtain ⟨b, hb⟩ := leaf_const ht hG (y := "b") (by decide +kernel) (hc _ (by decide))
  obtain ⟨c, hc'⟩ := leaf_const ht hG (y := "c") (by decide +kernel) (hc _ (by decide))
  have e : templateOf intScaled.integrand = mul [var "a", add [var "b", mul [var "c", var "x"]]] := by decide +kernel
  rw [e] at hG ht
  simp only [den_sem' ht] at hG
  have h1 := tmpl_reads (by decide +kernel) (by decide +kernel) hF
  simp only [intScaled] at h1
  sem_simp [leaf_iff (ha _), leaf_iff (hb _), leaf_iff (hc' _), leaf_iff (hS.var _)] at h1
  sem_simp [leaf_iff (ha _), leaf_iff (hb _), leaf_iff (hc' _), leaf_iff (hS.var _)] at hG
  obtain ⟨z0, h0⟩ := h1.exists
  have hc0 := right_ne_zero_of_mul h0.1
  have hd : ∀ z : ℂ, HasDerivAt (fun z => b + c * z) c z := fun z => by simpa using ((hasDerivAt_id z).const_mul c).const_add b
  refine hasDeriv_congr (h1.mono fun z h => h.2) (.of_forall fun z => (((hd z).pow 2).const_mul a).div_const _) ?_
  filter_upwards [hG] with z k
  rw [k]
  simp only [Nat.cast_ofNat]
  field_simp
  ring

theorem calc_neg : CalcOk intNeg := by
  intro I T F G hS hc hT hF hG
  have ht : tmpl (templateOf intNeg.integrand) = true := by decide +kernel
  obtain ⟨ku, hku⟩ := leaf_mostly ht hG (y := "u") (by decide +kernel)
  have e : templateOf intNeg.integrand = mul [.int (-1), var "u"] := by decide +kernel
  rw [e] at hG ht
  simp only [den_sem' ht] at hG
  obtain ⟨N, H, h1, h2, h3⟩ := reads_mul2 (by decide) (by decide) hF
  replace h1 := tmpl_reads (by decide +kernel) (by decide +kernel) h1
  obtain ⟨-, g, h4, h5⟩ := reads_int h2
  replace h4 := tmpl_reads (by decide +kernel) (by decide +kernel) h4
  have hN : ∀ᶠ z in mostly, N z = -1 := by
    filter_upwards [h1] with z k
    rw [sem_fn (by decide)] at k
    obtain ⟨v, k1, k2⟩ := k
    have e' : "System`" ++ "Identity" = "System`Identity" := by decide
    rw [e', hS.ident] at k2
    simp only [Option.some.injEq] at k2
    rw [sem_int] at k1
    rw [← k2, k1]
    norm_num
  refine hasDeriv_congr (F' := fun z => -1 * H z) (g := fun z => -1 * g z) ?_ (h5.mono fun z h => h.const_mul _) ?_
  · filter_upwards [h3, hN] with z k1 k2
    rw [k1, k2]
  · filter_upwards [h4, hG, hku] with z k1 k2 ru
    sem_simp [leaf_iff ru] at k1
    sem_simp [leaf_iff ru] at k2
    rw [k1, k2]

theorem calc_factor : CalcOk intFactor := by
  intro I T F G hS hc hT hF hG
  have ht : tmpl (templateOf intFactor.integrand) = true := by decide +kernel
  obtain ⟨a, ha⟩ := leaf_const ht hG (y := "a") (by decide +kernel) (hc _ (by decide))
  obtain ⟨ku, hku⟩ := leaf_mostly ht hG (y := "u") (by decide +kernel)
  have e : templateOf intFactor.integrand = mul [var "a", var "u"] := by decide +kernel
  rw [e] at hG ht
  simp only [den_sem' ht] at hG
  obtain ⟨N, H, h1, h2, h3⟩ := reads_mul2 (by decide) (by decide) hF
  replace h1 := tmpl_reads (by decide +kernel) (by decide +kernel) h1
  obtain ⟨-, g, h4, h5⟩ := reads_int h2
  replace h4 := tmpl_reads (by decide +kernel) (by decide +kernel) h4
  sem_simp [leaf_iff (ha _), leaf_iff (hS.var _)] at h1
  refine hasDeriv_congr (F' := fun z => a * H z) (g := fun z => a * g z) ?_ (h5.mono fun z h => h.const_mul _) ?_
  · filter_upwards [h3, h1] with z k1 k2
    rw [k1, k2]
  · filter_upwards [h4, hG, hku] with z k1 k2 ru
    sem_simp [leaf_iff (ha _), leaf_iff (hS.var _), leaf_iff ru] at k1
    sem_simp [leaf_iff (ha _), leaf_iff (hS.var _), leaf_iff ru] at k2
    rw [k1, k2]

theorem calc_mergePow : CalcOk intMergePow := by
  intro I T F G hS hc hT hF hG
  have ht : tmpl (templateOf intMergePow.integrand) = true := by decide +kernel
  obtain ⟨b, hb⟩ := leaf_const ht hG (y := "b") (by decide +kernel) (hc _ (by decide))
  obtain ⟨n, hn⟩ := leaf_const ht hG (y := "n") (by decide +kernel) (hc _ (by decide))
  obtain ⟨ku, hku⟩ := leaf_mostly ht hG (y := "u") (by decide +kernel)
  obtain ⟨km, hkm⟩ := leaf_mostly ht hG (y := "m") (by decide +kernel)
  obtain ⟨kv, hkv⟩ := leaf_mostly ht hG (y := "v") (by decide +kernel)
  have e : templateOf intMergePow.integrand = mul [var "u", pow (var "v") (var "m"), pow (mul [var "b", var "v"]) (var "n")] := by decide +kernel
  rw [e] at hG ht
  simp only [den_sem' ht] at hG
  obtain ⟨im, him⟩ := hS.integer _ (by decide +kernel) (hT (call "IntegerQ" [var "m"]) (by simp [intMergePow]))
  have qm : ∀ᶠ z in mostly, (I z).Denotes (var "m") (im : ℂ) := by
    filter_upwards [hkm] with z k
    rwa [← him z _ k]
  clear hkm
  obtain ⟨N, H, h1, h2, h3⟩ := reads_mul2 (by decide) (by decide) hF
  replace h1 := tmpl_reads (by decide +kernel) (by decide +kernel) h1
  obtain ⟨-, g, h4, h5⟩ := reads_int h2
  replace h4 := tmpl_reads (by decide +kernel) (by decide +kernel) h4
  have hN : ∀ᶠ z in mostly, b ^ (im : ℂ) ≠ 0 ∧ N z = 1 / b ^ (im : ℂ) := by
    filter_upwards [h1, qm] with z k rm
    sem_simp [leaf_iff (hb _), leaf_iff (hn _), leaf_iff (hS.var _), leaf_iff rm] at k
    exact ⟨k.2.1, k.2.2⟩
  obtain ⟨z0, h0⟩ := hN.exists
  refine hasDeriv_congr (F' := fun z => 1 / b ^ (im : ℂ) * H z) (g := fun z => 1 / b ^ (im : ℂ) * g z) ?_ (h5.mono fun z h => h.const_mul _) ?_
  · filter_upwards [h3, hN] with z k1 k2
    rw [k1, k2.2]
  · filter_upwards [h4, hG, hku, hkv, qm] with z k1 k2 ru rv rm
    sem_simp [leaf_iff (hb _), leaf_iff (hn _), leaf_iff (hS.var _), leaf_iff ru, leaf_iff rv, leaf_iff rm] at k1
    sem_simp [leaf_iff (hb _), leaf_iff (hn _), leaf_iff (hS.var _), leaf_iff ru, leaf_iff rv, leaf_iff rm] at k2
    rw [k1.2, k2.2.2]
    by_cases hbv : b * kv z = 0
    · have e1 : 0 < ((im : ℂ) + n).re := k1.1.resolve_left (not_not.2 hbv)
      have e2 : 0 < n.re := k2.2.1.resolve_left (not_not.2 hbv)
      rw [hbv, Complex.zero_cpow (fun h => by rw [h] at e1; simp at e1), Complex.zero_cpow (fun h => by rw [h] at e2; simp at e2)]
      simp
    · rw [Complex.cpow_add _ _ hbv, cpow_mul_int]
      have := h0.1
      generalize b ^ (im : ℂ) = B at this ⊢
      field_simp

theorem calc_proportional : CalcOk intProportional := by
  intro I T F G hS hc hT hF hG
  have ht : tmpl (templateOf intProportional.integrand) = true := by decide +kernel
  obtain ⟨a, ha⟩ := leaf_const ht hG (y := "a") (by decide +kernel) (hc _ (by decide))
  obtain ⟨b, hb⟩ := leaf_const ht hG (y := "b") (by decide +kernel) (hc _ (by decide))
  obtain ⟨c, hcc⟩ := leaf_const ht hG (y := "c") (by decide +kernel) (hc _ (by decide))
  obtain ⟨d, hd⟩ := leaf_const ht hG (y := "d") (by decide +kernel) (hc _ (by decide))
  obtain ⟨n, hn⟩ := leaf_const ht hG (y := "n") (by decide +kernel) (hc _ (by decide))
  obtain ⟨ku, hku⟩ := leaf_mostly ht hG (y := "u") (by decide +kernel)
  obtain ⟨km, hkm⟩ := leaf_mostly ht hG (y := "m") (by decide +kernel)
  obtain ⟨kv, hkv⟩ := leaf_mostly ht hG (y := "v") (by decide +kernel)
  have e : templateOf intProportional.integrand = mul [var "u", pow (add [var "a", mul [var "b", var "v"]]) (var "m"), pow (add [var "c", mul [var "d", var "v"]]) (var "n")] := by decide +kernel
  rw [e] at hG ht
  simp only [den_sem' ht] at hG
  obtain ⟨im, him⟩ := hS.integer _ (by decide +kernel) (hT (call "IntegerQ" [var "m"]) (by simp [intProportional]))
  have qm : ∀ᶠ z in mostly, (I z).Denotes (var "m") (im : ℂ) := by
    filter_upwards [hkm] with z k
    rwa [← him z _ k]
  clear hkm
  have hK := hS.zero _ (by decide +kernel) (hT (eqQ0 bcad) (by simp [intProportional])) 0 (b * c - a * d)
    ((den_sem' (by decide +kernel)).2 (by sem_simp [leaf_iff (ha _), leaf_iff (hb _), leaf_iff (hcc _), leaf_iff (hd _), leaf_iff (hn _), leaf_iff (hS.var _)]))
  obtain ⟨N, H, h1, h2, h3⟩ := reads_mul2 (by decide) (by decide) hF
  replace h1 := tmpl_reads (by decide +kernel) (by decide +kernel) h1
  obtain ⟨-, g, h4, h5⟩ := reads_int h2
  replace h4 := tmpl_reads (by decide +kernel) (by decide +kernel) h4
  have hN : ∀ᶠ z in mostly, d ≠ 0 ∧ N z = (b / d) ^ (im : ℂ) := by
    filter_upwards [h1, qm] with z k rm
    sem_simp [leaf_iff (ha _), leaf_iff (hb _), leaf_iff (hcc _), leaf_iff (hd _), leaf_iff (hn _), leaf_iff (hS.var _), leaf_iff rm] at k
    exact ⟨k.1, k.2.2⟩
  obtain ⟨z0, h0⟩ := hN.exists
  have hd0 := h0.1
  refine hasDeriv_congr (F' := fun z => (b / d) ^ (im : ℂ) * H z) (g := fun z => (b / d) ^ (im : ℂ) * g z) ?_ (h5.mono fun z h => h.const_mul _) ?_
  · filter_upwards [h3, hN] with z k1 k2
    rw [k1, k2.2]
  · filter_upwards [h4, hG, hku, hkv, qm] with z k1 k2 ru rv rm
    sem_simp [leaf_iff (ha _), leaf_iff (hb _), leaf_iff (hcc _), leaf_iff (hd _), leaf_iff (hn _), leaf_iff (hS.var _), leaf_iff ru, leaf_iff rv, leaf_iff rm] at k1
    sem_simp [leaf_iff (ha _), leaf_iff (hb _), leaf_iff (hcc _), leaf_iff (hd _), leaf_iff (hn _), leaf_iff (hS.var _), leaf_iff ru, leaf_iff rv, leaf_iff rm] at k2
    rw [k1.2, k2.2.2]
    have e0 : a + b * kv z = b / d * (c + d * kv z) := by
      field_simp
      linear_combination -hK
    by_cases hbv : c + d * kv z = 0
    · have e1 : 0 < ((im : ℂ) + n).re := k1.1.resolve_left (not_not.2 hbv)
      have e2 : 0 < n.re := k2.2.1.resolve_left (not_not.2 hbv)
      rw [hbv, Complex.zero_cpow (fun h => by rw [h] at e1; simp at e1), Complex.zero_cpow (fun h => by rw [h] at e2; simp at e2)]
      simp
    · rw [e0, Complex.cpow_add _ _ hbv, cpow_mul_int]
      ring

end Expreduce
