import Verif.Proofs.RuleTactic

/-! The rules of `Power`. -/

namespace Expreduce
open Ex Shipped

theorem neg_one_cpow_half : (-1 : ℂ) ^ ((1 : ℂ) / 2) = Complex.I := by
  rw [Complex.cpow_def_of_ne_zero (by norm_num), Complex.log_neg_one, show (Real.pi : ℂ) * Complex.I * (1 / 2) = Real.pi / 2 * Complex.I by ring,
    Complex.exp_mul_I, Complex.cos_pi_div_two, Complex.sin_pi_div_two]
  simp

theorem neg_one_cpow_neg_half : (-1 : ℂ) ^ ((-1 : ℂ) / 2) = -Complex.I := by
  rw [show (-1 : ℂ) / 2 = -(1 / 2) by ring, Complex.cpow_neg, neg_one_cpow_half, Complex.inv_I]

theorem div_cpow_half {y z : ℝ} (hy : 0 < y) (hz : 0 < z) :
    ((y : ℂ) / z) ^ ((1 : ℂ) / 2) = (y : ℂ) ^ ((1 : ℂ) * (2 : ℂ)⁻¹) * (z : ℂ) ^ ((-1 : ℂ) * (2 : ℂ)⁻¹) := by
  have h1 : ((y : ℂ) / z) ^ ((1 : ℂ) / 2) = (((y / z) ^ ((1 : ℝ) / 2) : ℝ) : ℂ) := by
    rw [Complex.ofReal_cpow (div_pos hy hz).le]; push_cast; rfl
  have h2 : (y : ℂ) ^ ((1 : ℂ) * (2 : ℂ)⁻¹) = ((y ^ ((1 : ℝ) / 2) : ℝ) : ℂ) := by
    rw [Complex.ofReal_cpow hy.le]; push_cast; congr 1 <;> ring
  have h3 : (z : ℂ) ^ ((-1 : ℂ) * (2 : ℂ)⁻¹) = ((z ^ (-((1 : ℝ) / 2)) : ℝ) : ℂ) := by
    rw [Complex.ofReal_cpow hz.le]; push_cast; congr 1 <;> ring
  rw [h1, h2, h3, ← Complex.ofReal_mul, Real.div_rpow hy.le hz.le, Real.rpow_neg hz.le]
  rfl

section
variable {V : Interp} {A : AlgParams} {D : Table} (hS : V.Standard) (hT : TruthOk V A.truth) (hD : StdTable V D) (hL : LocalsOk A.locals)
include hS hT hD hL

theorem power_0 : SoundPair V A D (powerRules[0]'(by decide)) := by
  refine sound_plain hL (by decide +kernel) fun ρ ht hu => ?_
  obtain ⟨a, ha, fa, na⟩ := taken_any hD (by decide) (by decide) (ht (false, "System`Power", any "a") (by decide +kernel))
  obtain ⟨wb, hb, fb, nb, gb⟩ := taken_anyOf hD (by decide) (by decide) (ht (false, "System`Power", anyOf "b" "Integer") (by decide +kernel))
  obtain ⟨b, rfl⟩ := frag_integer fb gb
  obtain ⟨wc, hc, fc, nc, gc⟩ := taken_anyOf hD (by decide) (by decide) (ht (false, "System`Power", anyOf "c" "Integer") (by decide +kernel))
  obtain ⟨c, rfl⟩ := frag_integer fc gc
  clear ht
  simp only [String.reduceAppend, Unbound] at *
  rule_sides [ha, hb, hc, hu]
  clear hu
  refine sameValue_call (by decide) (by rule_frag) (by first | assumption | simp [hasHead]) fun v hv => ?_
  rule_hyp [na, nb, nc] at hv
  obtain ⟨p, ⟨y, hy, hp⟩, hq⟩ := hv
  rule_goal [na, nb, nc, hy]
  exact powValue_mul_int hp hq

theorem power_1 : SoundPair V A D (powerRules[1]'(by decide)) := by
  refine sound_plain hL (by decide +kernel) fun ρ ht hu => ?_
  obtain ⟨a, ha, fa, na⟩ := taken_any hD (by decide) (by decide) (ht (false, "System`Power", any "a") (by decide +kernel))
  obtain ⟨wb, hb, fb, nb, gb⟩ := taken_anyOf hD (by decide) (by decide) (ht (false, "System`Power", anyOf "b" "Symbol") (by decide +kernel))
  obtain ⟨b, rfl⟩ := frag_symbol fb gb
  obtain ⟨wc, hc, fc, nc, gc⟩ := taken_anyOf hD (by decide) (by decide) (ht (false, "System`Power", anyOf "c" "Integer") (by decide +kernel))
  obtain ⟨c, rfl⟩ := frag_integer fc gc
  clear ht
  simp only [String.reduceAppend, Unbound] at *
  rule_sides [ha, hb, hc, hu]
  clear hu
  refine sameValue_call (by decide) (by rule_frag) (by first | assumption | simp [hasHead]) fun v hv => ?_
  rule_hyp [na, nb, nc] at hv
  obtain ⟨p, ⟨y, hy, z, hz, hp⟩, hq⟩ := hv
  rule_goal [na, nb, nc, hy, hz]
  exact powValue_mul_int hp hq

theorem power_2 : SoundPair V A D (powerRules[2]'(by decide)) := by
  refine sound_plain hL (by decide +kernel) fun ρ ht hu => ?_
  obtain ⟨a, ha, fa, na⟩ := taken_any hD (by decide) (by decide) (ht (false, "System`Power", any "a") (by decide +kernel))
  obtain ⟨b, hb, fb, nb, gb⟩ := taken_anyOf hD (by decide) (by decide) (ht (false, "System`Times", anyOf "b" "Complex") (by decide +kernel))
  obtain ⟨wc, hc, fc, nc, gc⟩ := taken_anyOf hD (by decide) (by decide) (ht (false, "System`Times", anyOf "c" "Symbol") (by decide +kernel))
  obtain ⟨c, rfl⟩ := frag_symbol fc gc
  obtain ⟨wd, hd, fd, nd, gd⟩ := taken_anyOf hD (by decide) (by decide) (ht (false, "System`Power", anyOf "d" "Integer") (by decide +kernel))
  obtain ⟨d, rfl⟩ := frag_integer fd gd
  clear ht
  simp only [String.reduceAppend, Unbound] at *
  rule_sides [ha, hb, hc, hd, hu]
  clear hu
  refine sameValue_call (by decide) (by rule_frag) (by first | assumption | simp [hasHead]) fun v hv => ?_
  rule_hyp [na, nb, nc, nd] at hv
  obtain ⟨p, ⟨y, hy, z, ⟨u, hu, w, ⟨w', hw, rfl⟩, rfl⟩, hp⟩, hq⟩ := hv
  rule_goal [na, nb, nc, nd, hy, hu, hw]
  rw [← mul_assoc]
  exact powValue_mul_int hp hq

theorem power_3 : SoundPair V A D (powerRules[3]'(by decide)) := by
  refine sound_plain hL (by decide +kernel) fun ρ ht hu => ?_
  obtain ⟨a, ha, fa, na⟩ := taken_any hD (by decide) (by decide) (ht (false, "System`Power", any "a") (by decide +kernel))
  clear ht
  simp only [String.reduceAppend, Unbound] at *
  rule_sides [ha, hu]
  clear hu
  refine sameValue_call (by decide) (by rule_frag) (by first | assumption | simp [hasHead]) fun v hv => ?_
  rule_hyp [na] at hv
  obtain ⟨y, hy, hp⟩ := hv
  rw [powValue_ne one_ne_zero, Complex.one_cpow] at hp
  rule_goal []
  exact (Option.some.inj hp)

theorem power_4 : SoundPair V A D (powerRules[4]'(by decide)) := by
  refine sound_plain hL (by decide +kernel) fun ρ ht hu => ?_
  obtain ⟨b, hb, fb, nb⟩ := taken_any hD (by decide) (by decide) (ht (false, "System`Power", any "b") (by decide +kernel))
  clear ht
  simp only [String.reduceAppend, Unbound] at *
  rule_sides [hb, hu]
  clear hu
  refine sameValue_call (by decide) (by rule_frag) (by first | assumption | simp [hasHead]) fun v hv => ?_
  rule_hyp [nb] at hv

theorem power_5 : SoundPair V A D (powerRules[5]'(by decide)) := by
  refine sound_plain hL (by decide +kernel) fun ρ ht hu => ?_
  obtain ⟨a, ha, fa, na⟩ := taken_any hD (by decide) (by decide) (ht (false, "System`Times", any "first") (by decide +kernel))
  obtain ⟨b, hb, fb⟩ := taken_many hD (ht (false, "System`Times", many "inner") (by decide +kernel))
  obtain ⟨wn, hn, fn, nn, gn⟩ := taken_anyOf hD (by decide) (by decide) (ht (false, "System`Power", anyOf "pow" "Integer") (by decide +kernel))
  obtain ⟨n, rfl⟩ := frag_integer fn gn
  clear ht
  simp only [String.reduceAppend, Unbound] at *
  rule_sides [ha, hb, hn, hu]
  clear hu
  refine sameValue_call (by decide) (by rule_frag) (by first | assumption | simp [hasHead]) fun v hv => ?_
  rule_hyp [na, nn] at hv
  obtain ⟨p, ⟨y, hy, z, hz, rfl⟩, hp⟩ := hv
  obtain ⟨c, d, hc, hd, rfl⟩ := powValue_prod_int hp
  rule_goal [na, nn, hy, hz, hc, hd]

theorem power_6 : SoundPair V A D (powerRules[6]'(by decide)) := by
  refine sound_plain hL (by decide +kernel) fun ρ ht hu => ?_
  obtain ⟨a, ha, fa, na⟩ := taken_any hD (by decide) (by decide) (ht (false, "System`Rational", any "a") (by decide +kernel))
  obtain ⟨b, hb, fb, nb⟩ := taken_any hD (by decide) (by decide) (ht (false, "System`Rational", any "b") (by decide +kernel))
  clear ht
  simp only [String.reduceAppend, Unbound] at *
  rule_sides [ha, hb, hu]
  clear hu
  refine sameValue_call (by decide) (by rule_frag) (by first | assumption | simp [hasHead]) fun v hv => ?_
  rule_hyp [na, nb] at hv
  obtain ⟨p, ⟨y, hy, z, hz, h0, rfl⟩, hp⟩ := hv
  obtain ⟨h1, rfl⟩ := powValue_neg_one hp
  have h2 : y ≠ 0 := fun h => h1 (by simp [h])
  rule_goal [na, nb, hy, hz, if_neg h2]
  field_simp

theorem power_7 : SoundPair V A D (powerRules[7]'(by decide)) := by
  refine sound_plain hL (by decide +kernel) fun ρ ht hu => ?_
  obtain ⟨a, ha, fa, na⟩ := taken_any hD (by decide) (by decide) (ht (false, "System`Rational", any "a") (by decide +kernel))
  obtain ⟨b, hb, fb, nb⟩ := taken_any hD (by decide) (by decide) (ht (false, "System`Rational", any "b") (by decide +kernel))
  obtain ⟨wn, hn, fn, nn, gn, tn⟩ := taken_tested hD (by decide) (by decide) (by decide) (ht (false, "System`Power", tested (anyOf "e" "Integer") "Positive") (by decide +kernel))
  obtain ⟨n, rfl⟩ := frag_integer fn gn
  clear ht
  simp only [String.reduceAppend, Unbound] at *
  rule_sides [ha, hb, hn, hu]
  clear hu
  refine sameValue_call (by decide) (by rule_frag) (by first | assumption | simp [hasHead]) fun v hv => ?_
  rule_hyp [na, nb, nn] at hv
  obtain ⟨p, ⟨y, hy, z, hz, h0, rfl⟩, hp⟩ := hv
  have hn := hT.positiveInt n tn
  obtain ⟨rfl, h1⟩ := powValue_int hp
  have h2 : z ^ n ≠ 0 := zpow_ne_zero n h0
  rule_goal [na, nb, nn, hy, hz, powValue_int_some (x := y) (fun _ => hn), powValue_int_some (x := z) (fun _ => hn), if_neg h2]
  exact (div_zpow y z n).symm

theorem power_8 : SoundPair V A D (powerRules[8]'(by decide)) := by
  refine sound_plain hL (by decide +kernel) fun ρ ht hu => ?_
  clear ht
  simp only [String.reduceAppend, Unbound] at *
  rule_sides [hu]
  clear hu
  refine sameValue_call (by decide) (by rule_frag) (by first | assumption | simp [hasHead]) fun v hv => ?_
  rule_hyp [] at hv
  rw [powValue_ne (by norm_num)] at hv
  rule_goal [hS.val_i]
  rw [← Option.some.inj hv, neg_one_cpow_neg_half]
  ring

theorem power_9 : SoundPair V A D (powerRules[9]'(by decide)) := by
  refine sound_plain hL (by decide +kernel) fun ρ ht hu => ?_
  clear ht
  simp only [String.reduceAppend, Unbound] at *
  rule_sides [hu]
  clear hu
  refine sameValue_call (by decide) (by rule_frag) (by first | assumption | simp [hasHead]) fun v hv => ?_
  rule_hyp [] at hv
  rw [powValue_ne (by norm_num)] at hv
  rule_goal [hS.val_i]
  rw [← Option.some.inj hv, neg_one_cpow_half]

theorem power_10 : SoundPair V A D (powerRules[10]'(by decide)) := by
  refine sound_plain hL (by decide +kernel) fun ρ ht hu => ?_
  obtain ⟨a, ha, fa, na, ta⟩ := taken_testedAny hD (env_other hD (by decide) (by decide)).1 (by decide) (ht (false, "System`Rational", .expr [S "PatternTest", any "a", S "Positive"]) (by decide +kernel))
  obtain ⟨b, hb, fb, nb, tb⟩ := taken_testedAny hD (env_other hD (by decide) (by decide)).1 (by decide) (ht (false, "System`Rational", .expr [S "PatternTest", any "b", S "Positive"]) (by decide +kernel))
  clear ht
  simp only [String.reduceAppend, Unbound] at *
  rule_sides [ha, hb, hu]
  clear hu
  refine sameValue_call (by decide) (by rule_frag) (by first | assumption | simp [hasHead]) fun v hv => ?_
  rule_hyp [na, nb] at hv
  obtain ⟨p, ⟨y, hy, z, hz, h0, rfl⟩, hp⟩ := hv
  obtain ⟨y, rfl, hy0⟩ := hT.positive _ _ ta hy
  obtain ⟨z, rfl, hz0⟩ := hT.positive _ _ tb hz
  have hyc : (y : ℂ) ≠ 0 := by exact_mod_cast hy0.ne'
  have hzc : (z : ℂ) ≠ 0 := h0
  rule_goal [na, nb, hy, hz, powValue_neg_one_some (x := 2) (by norm_num), powValue_ne hyc, powValue_ne hzc]
  rw [powValue_ne (div_ne_zero hyc hzc)] at hp
  cases hp
  exact (div_cpow_half hy0 hz0).symm

theorem power_11 : SoundPair V A D (powerRules[11]'(by decide)) := by
  refine sound_plain hL (by decide +kernel) fun ρ ht hu => ?_
  obtain ⟨x, hx, fx, nx⟩ := taken_any hD (by decide) (by decide) (ht (false, "System`Power", any "x") (by decide +kernel))
  obtain ⟨y, hy, fy, ny, gy⟩ := taken_anyOf hD (by decide) (by decide) (ht (false, "System`Power", anyOf "y" "Rational") (by decide +kernel))
  clear ht
  simp only [String.reduceAppend, Unbound] at *
  rule_sides [hx, hy, hu]
  clear hu
  refine sameValue_call (by decide) (by rule_frag) (by first | assumption | simp [hasHead]) fun v hv => ?_
  rule_hyp [nx, ny] at hv
  obtain ⟨p, ⟨u, hu, w, hw, hp⟩, hq⟩ := hv
  rule_goal [nx, ny, hu, hw]
  have := powValue_mul_int (n := -1) hp (by simpa using hq)
  simpa using this

theorem power_12 : SoundPair V A D (powerRules[12]'(by decide)) := by
  refine sound_plain hL (by decide +kernel) fun ρ ht hu => ?_
  obtain ⟨a, ha, fa, na⟩ := taken_any hD (by decide) (by decide) (ht (false, "System`Log", any "a") (by decide +kernel))
  clear ht
  simp only [String.reduceAppend, Unbound] at *
  rule_sides [ha, hu]
  clear hu
  refine sameValue_call (by decide) (by rule_frag) (by first | assumption | simp [hasHead]) fun v hv => ?_
  rule_hyp [na, hS.val_e, hS.op_log] at hv
  obtain ⟨p, ⟨u, hu, h0, rfl⟩, hp⟩ := hv
  rw [powValue_ne (Complex.exp_ne_zero 1)] at hp
  rw [hu, ← hp, Complex.cpow_def_of_ne_zero (Complex.exp_ne_zero 1)]
  have h1 : Complex.log (Complex.exp 1) = 1 := Complex.log_exp (by simp [Real.pi_pos]) (by simp [Real.pi_pos.le])
  rw [h1, one_mul, Complex.exp_log h0]

theorem power_13 : SoundPair V A D (powerRules[13]'(by decide)) := by
  refine sound_plain hL (by decide +kernel) fun ρ ht hu => ?_
  obtain ⟨x, hx, fx, nx⟩ := taken_any hD (by decide) (by decide) (ht (false, "System`Tan", any "x") (by decide +kernel))
  clear ht
  simp only [String.reduceAppend, Unbound] at *
  rule_sides [hx, hu]
  clear hu
  refine sameValue_call (by decide) (by rule_frag) (by first | assumption | simp [hasHead]) fun v hv => ?_
  rule_hyp [nx, hS.op_tan] at hv
  obtain ⟨p, ⟨u, hu, h0, rfl⟩, hp⟩ := hv
  obtain ⟨h1, rfl⟩ := powValue_neg_one hp
  rw [Complex.tan_eq_sin_div_cos] at h1 ⊢
  have h2 : Complex.sin u ≠ 0 := fun h => h1 (by simp [h])
  rule_goal [nx, hu, hS.op_cot, if_neg h2]
  field_simp

theorem power_14 : SoundPair V A D (powerRules[14]'(by decide)) := by
  refine sound_plain hL (by decide +kernel) fun ρ ht hu => ?_
  obtain ⟨x, hx, fx, nx⟩ := taken_any hD (by decide) (by decide) (ht (false, "System`Cot", any "x") (by decide +kernel))
  clear ht
  simp only [String.reduceAppend, Unbound] at *
  rule_sides [hx, hu]
  clear hu
  refine sameValue_call (by decide) (by rule_frag) (by first | assumption | simp [hasHead]) fun v hv => ?_
  rule_hyp [nx, hS.op_cot] at hv
  obtain ⟨p, ⟨u, hu, h0, rfl⟩, hp⟩ := hv
  obtain ⟨h1, rfl⟩ := powValue_neg_one hp
  have h2 : Complex.cos u ≠ 0 := fun h => h1 (by simp [h])
  rule_goal [nx, hu, hS.op_tan, if_neg h2]
  rw [Complex.tan_eq_sin_div_cos]
  field_simp

theorem power_sound : ∀ r ∈ powerRules, SoundPair V A D r := by
  intro r hr
  simp only [powerRules, List.mem_cons, List.not_mem_nil, or_false] at hr
  rcases hr with rfl | rfl | rfl | rfl | rfl | rfl | rfl | rfl | rfl | rfl | rfl | rfl | rfl | rfl | rfl
  · exact power_0 hS hT hD hL
  · exact power_1 hS hT hD hL
  · exact power_2 hS hT hD hL
  · exact power_3 hS hT hD hL
  · exact power_4 hS hT hD hL
  · exact power_5 hS hT hD hL
  · exact power_6 hS hT hD hL
  · exact power_7 hS hT hD hL
  · exact power_8 hS hT hD hL
  · exact power_9 hS hT hD hL
  · exact power_10 hS hT hD hL
  · exact power_11 hS hT hD hL
  · exact power_12 hS hT hD hL
  · exact power_13 hS hT hD hL
  · exact power_14 hS hT hD hL

end
end Expreduce
