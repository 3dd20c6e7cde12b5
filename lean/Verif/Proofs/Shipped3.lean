import Verif.Proofs.Shipped2

/-! The rules of `Log`, `Sqrt`, `Tan`, `Cot`, `Sec` and `ArcTan`. -/

namespace Expreduce
open Ex Shipped

theorem log_neg_pos {c : ℝ} (hc : 0 < c) : Complex.log (-(c : ℂ)) = Real.pi * Complex.I + Complex.log c := by
  rw [show (-(c : ℂ)) = (c : ℂ) * -1 by ring, Complex.log_ofReal_mul hc (by norm_num), Complex.ofReal_log hc.le, Complex.log_neg_one]
  ring

theorem arctan_one' : Complex.arctan 1 = Real.pi / 4 := by
  have := Complex.ofReal_arctan 1
  rw [Real.arctan_one] at this
  simpa using this.symm

theorem arctan_neg_one' : Complex.arctan (-1) = -(Real.pi / 4) := by
  have := Complex.ofReal_arctan (-1)
  rw [Real.arctan_neg, Real.arctan_one] at this
  simpa using this.symm

section
variable {V : Interp} {A : AlgParams} {D : Table} (hS : V.Standard) (hT : TruthOk V A.truth) (hD : StdTable V D) (hL : LocalsOk A.locals)
include hS hT hD hL

theorem log_0 : SoundPair V A D (logRules[0]'(by decide)) := by
  refine sound_plain hL (by decide +kernel) fun ρ ht hu => ?_
  obtain ⟨wn, hn, fn, nn, gn, tn⟩ := taken_tested hD (by decide) (by decide) (by decide) (ht (false, "System`Log", tested (anyOf "n" "Integer") "Negative") (by decide +kernel))
  obtain ⟨n, rfl⟩ := frag_integer fn gn
  clear ht
  simp only [String.reduceAppend, Unbound] at *
  rule_sides [hn, hu]
  clear hu
  refine sameValue_call (by decide) (by rule_frag) (by first | assumption | simp [hasHead]) fun v hv => ?_
  have hneg := hT.negative n tn
  obtain ⟨m, rfl⟩ : ∃ m : Int, n = -m := ⟨-n, by omega⟩
  have hm0 : (0 : ℝ) < m := by exact_mod_cast (by omega : 0 < m)
  have hmn : (m : ℂ) ≠ 0 := by exact_mod_cast (by omega : m ≠ 0)

  rule_hyp [hS.op_log] at hv
  obtain ⟨h0, hl⟩ := hv
  rule_goal [hS.op_log, hS.val_i, hS.val_pi, neg_mul, one_mul, neg_neg, if_neg hmn]
  rw [← hl]
  have := log_neg_pos hm0
  rw [Complex.ofReal_intCast] at this
  rw [this]
  ring

theorem log_1 : SoundPair V A D (logRules[1]'(by decide)) := by
  refine sound_plain hL (by decide +kernel) fun ρ ht hu => ?_
  clear ht
  simp only [String.reduceAppend, Unbound] at *
  rule_sides [hu]
  clear hu
  refine sameValue_call (by decide) (by rule_frag) (by first | assumption | simp [hasHead]) fun v hv => ?_
  rule_hyp [hS.op_log] at hv

theorem log_2 : SoundPair V A D (logRules[2]'(by decide)) := by
  refine sound_plain hL (by decide +kernel) fun ρ ht hu => ?_
  clear ht
  simp only [String.reduceAppend, Unbound] at *
  rule_sides [hu]
  clear hu
  refine sameValue_call (by decide) (by rule_frag) (by first | assumption | simp [hasHead]) fun v hv => ?_
  rule_hyp [hS.op_log] at hv

theorem log_3 : SoundPair V A D (logRules[3]'(by decide)) := by
  refine sound_plain hL (by decide +kernel) fun ρ ht hu => ?_
  clear ht
  simp only [String.reduceAppend, Unbound] at *
  rule_sides [hu]
  clear hu
  refine sameValue_call (by decide) (by rule_frag) (by first | assumption | simp [hasHead]) fun v hv => ?_
  rule_hyp [hS.op_log, not_true_eq_false] at hv

theorem log_4 : SoundPair V A D (logRules[4]'(by decide)) := by
  refine sound_plain hL (by decide +kernel) fun ρ ht hu => ?_
  clear ht
  simp only [String.reduceAppend, Unbound] at *
  rule_sides [hu]
  clear hu
  refine sameValue_call (by decide) (by rule_frag) (by first | assumption | simp [hasHead]) fun v hv => ?_
  rule_hyp [hS.op_log] at hv
  rule_goal []
  rw [← hv.2, Complex.log_one]

theorem log_5 : SoundPair V A D (logRules[5]'(by decide)) := by
  refine sound_plain hL (by decide +kernel) fun ρ ht hu => ?_
  clear ht
  simp only [String.reduceAppend, Unbound] at *
  rule_sides [hu]
  clear hu
  refine sameValue_call (by decide) (by rule_frag) (by first | assumption | simp [hasHead]) fun v hv => ?_
  rule_hyp [hS.op_log, hS.val_e] at hv
  rule_goal []
  rw [← hv.2, Complex.log_exp (by simp [Real.pi_pos]) (by simp [Real.pi_pos.le])]

theorem log_sound : ∀ r ∈ logRules, SoundPair V A D r := by
  intro r hr
  simp only [logRules, List.mem_cons, List.not_mem_nil, or_false] at hr
  rcases hr with rfl | rfl | rfl | rfl | rfl | rfl
  · exact log_0 hS hT hD hL
  · exact log_1 hS hT hD hL
  · exact log_2 hS hT hD hL
  · exact log_3 hS hT hD hL
  · exact log_4 hS hT hD hL
  · exact log_5 hS hT hD hL

theorem sqrt_0 : SoundPair V A D (sqrtRules[0]'(by decide)) := by
  refine sound_plain hL (by decide +kernel) fun ρ ht hu => ?_
  obtain ⟨wn, hn, fn, nn, gn, tn⟩ := taken_tested hD (by decide) (by decide) (by decide) (ht (false, "System`Sqrt", tested (anyOf "a" "Integer") "Negative") (by decide +kernel))
  obtain ⟨n, rfl⟩ := frag_integer fn gn
  clear ht
  simp only [String.reduceAppend, Unbound] at *
  rule_sides [hn, hu]
  clear hu
  refine sameValue_call (by decide) (by rule_frag) (by first | assumption | simp [hasHead]) fun v hv => ?_
  have hneg := hT.negative n tn
  obtain ⟨m, rfl⟩ : ∃ m : Int, n = -m := ⟨-n, by omega⟩
  have hm0 : (0 : ℝ) < m := by exact_mod_cast (by omega : 0 < m)
  have hmn : (m : ℂ) ≠ 0 := by exact_mod_cast (by omega : m ≠ 0)

  rule_hyp [hS.op_sqrt] at hv
  rw [powValue_ne (neg_ne_zero.2 hmn)] at hv
  rule_goal [hS.op_sqrt, hS.val_i, neg_mul, one_mul, neg_neg, powValue_ne hmn]
  rw [← Option.some.inj hv]
  have := neg_cpow hm0 (1 / 2)
  rw [Complex.ofReal_intCast] at this
  rw [this, neg_one_cpow_half]

theorem sqrt_sound : ∀ r ∈ sqrtRules, SoundPair V A D r := by
  intro r hr
  simp only [sqrtRules, List.mem_cons, List.not_mem_nil, or_false] at hr
  subst hr
  exact sqrt_0 hS hT hD hL

theorem tan_0 : SoundPair V A D (tanRules[0]'(by decide)) := by
  refine sound_plain hL (by decide +kernel) fun ρ ht hu => ?_
  obtain ⟨a, ha, fa, na⟩ := taken_any hD (by decide) (by decide) (ht (false, "System`Plus", any "a") (by decide +kernel))
  clear ht
  simp only [String.reduceAppend, Unbound] at *
  rule_sides [ha, hu]
  clear hu
  refine sameValue_call (by decide) (by rule_frag) (by first | assumption | simp [hasHead]) fun v hv => ?_
  rule_hyp [na, hS.op_tan, hS.val_pi] at hv
  obtain ⟨z, ⟨x, hx, rfl⟩, h0, rfl⟩ := hv
  rw [show (1 : ℂ) / 2 * Real.pi = Real.pi / 2 by ring] at h0 ⊢
  rw [Complex.cos_add_pi_div_two] at h0
  have h1 : Complex.sin (-1 * x) ≠ 0 := by simpa using h0
  rule_goal [na, hx, hS.op_cot, if_neg h1]
  rw [Complex.tan_eq_sin_div_cos, Complex.sin_add_pi_div_two, Complex.cos_add_pi_div_two, show -1 * x = -x by ring, Complex.cos_neg, Complex.sin_neg]

theorem tan_1 : SoundPair V A D (tanRules[1]'(by decide)) := by
  refine sound_plain hL (by decide +kernel) fun ρ ht hu => ?_
  obtain ⟨a, ha, fa, na⟩ := taken_any hD (by decide) (by decide) (ht (false, "System`ArcTan", any "a") (by decide +kernel))
  clear ht
  simp only [String.reduceAppend, Unbound] at *
  rule_sides [ha, hu]
  clear hu
  refine sameValue_call (by decide) (by rule_frag) (by first | assumption | simp [hasHead]) fun v hv => ?_
  rule_hyp [na, hS.op_tan, hS.op_arctan] at hv
  obtain ⟨z, ⟨x, hx, h0, rfl⟩, h1, rfl⟩ := hv
  rw [not_or] at h0
  rw [hx, Complex.tan_arctan h0.1 h0.2]

theorem tan_sound : ∀ r ∈ tanRules, SoundPair V A D r := by
  intro r hr
  simp only [tanRules, List.mem_cons, List.not_mem_nil, or_false] at hr
  rcases hr with rfl | rfl
  · exact tan_0 hS hT hD hL
  · exact tan_1 hS hT hD hL

theorem cot_0 : SoundPair V A D (cotRules[0]'(by decide)) := by
  refine sound_plain hL (by decide +kernel) fun ρ ht hu => ?_
  obtain ⟨a, ha, fa, na⟩ := taken_any hD (by decide) (by decide) (ht (false, "System`Plus", any "x") (by decide +kernel))
  clear ht
  simp only [String.reduceAppend, Unbound] at *
  rule_sides [ha, hu]
  clear hu
  refine sameValue_call (by decide) (by rule_frag) (by first | assumption | simp [hasHead]) fun v hv => ?_
  rule_hyp [na, hS.op_cot, hS.val_pi] at hv
  obtain ⟨z, ⟨x, hx, rfl⟩, h0, rfl⟩ := hv
  rw [show (1 : ℂ) / 2 * Real.pi = Real.pi / 2 by ring] at h0 ⊢
  rw [Complex.sin_add_pi_div_two] at h0
  rule_goal [na, hx, hS.op_tan, if_neg h0]
  rw [Complex.tan_eq_sin_div_cos, Complex.sin_add_pi_div_two, Complex.cos_add_pi_div_two]
  ring

theorem cot_sound : ∀ r ∈ cotRules, SoundPair V A D r := by
  intro r hr
  simp only [cotRules, List.mem_cons, List.not_mem_nil, or_false] at hr
  subst hr
  exact cot_0 hS hT hD hL

theorem sec_0 : SoundPair V A D (secRules[0]'(by decide)) := by
  refine sound_plain hL (by decide +kernel) fun ρ ht hu => ?_
  obtain ⟨a, ha, fa, na⟩ := taken_any hD (by decide) (by decide) (ht (false, "System`Plus", any "x") (by decide +kernel))
  clear ht
  simp only [String.reduceAppend, Unbound] at *
  rule_sides [ha, hu]
  clear hu
  refine sameValue_call (by decide) (by rule_frag) (by first | assumption | simp [hasHead]) fun v hv => ?_
  rule_hyp [na, hS.op_sec, hS.val_pi] at hv
  obtain ⟨z, ⟨x, hx, rfl⟩, h0, rfl⟩ := hv
  rw [show x + (-1 : ℂ) / 2 * Real.pi = x - Real.pi / 2 by ring, Complex.cos_sub_pi_div_two] at h0 ⊢
  rule_goal [na, hx, hS.op_csc, if_neg h0]

theorem sec_sound : ∀ r ∈ secRules, SoundPair V A D r := by
  intro r hr
  simp only [secRules, List.mem_cons, List.not_mem_nil, or_false] at hr
  subst hr
  exact sec_0 hS hT hD hL

theorem arcTan_0 : SoundPair V A D (arcTanRules[0]'(by decide)) := by
  refine sound_plain hL (by decide +kernel) fun ρ ht hu => ?_
  clear ht
  simp only [String.reduceAppend, Unbound] at *
  rule_sides [hu]
  clear hu
  refine sameValue_call (by decide) (by rule_frag) (by first | assumption | simp [hasHead]) fun v hv => ?_
  rule_hyp [hS.op_arctan] at hv
  rule_goal [hS.val_pi, powValue_neg_one_some (x := 4) (by norm_num)]
  rw [← hv.2, arctan_neg_one']
  ring

theorem arcTan_1 : SoundPair V A D (arcTanRules[1]'(by decide)) := by
  refine sound_plain hL (by decide +kernel) fun ρ ht hu => ?_
  clear ht
  simp only [String.reduceAppend, Unbound] at *
  rule_sides [hu]
  clear hu
  refine sameValue_call (by decide) (by rule_frag) (by first | assumption | simp [hasHead]) fun v hv => ?_
  rule_hyp [hS.op_arctan] at hv
  rule_goal []
  rw [← hv.2, show Complex.arctan 0 = 0 by simp [Complex.arctan]]

theorem arcTan_2 : SoundPair V A D (arcTanRules[2]'(by decide)) := by
  refine sound_plain hL (by decide +kernel) fun ρ ht hu => ?_
  clear ht
  simp only [String.reduceAppend, Unbound] at *
  rule_sides [hu]
  clear hu
  refine sameValue_call (by decide) (by rule_frag) (by first | assumption | simp [hasHead]) fun v hv => ?_
  rule_hyp [hS.op_arctan] at hv
  rule_goal [hS.val_pi, powValue_neg_one_some (x := 4) (by norm_num)]
  rw [← hv.2, arctan_one']
  ring

theorem arcTan_sound : ∀ r ∈ arcTanRules, SoundPair V A D r := by
  intro r hr
  simp only [arcTanRules, List.mem_cons, List.not_mem_nil, or_false] at hr
  rcases hr with rfl | rfl | rfl
  · exact arcTan_0 hS hT hD hL
  · exact arcTan_1 hS hT hD hL
  · exact arcTan_2 hS hT hD hL

end
end Expreduce
