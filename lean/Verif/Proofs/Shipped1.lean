import Verif.Proofs.RuleTactic

/-! The rules of `Times`. -/

namespace Expreduce
open Ex Shipped

section
variable {V : Interp} {A : AlgParams} {D : Table} (hS : V.Standard) (hT : TruthOk V A.truth) (hD : StdTable V D) (hL : LocalsOk A.locals)
include hS hT hD hL

theorem times_0 : SoundPair V A D (timesRules[0]'(by decide)) := by
  refine sound_always hL (by decide +kernel) fun ρ ht hu => ?_
  obtain ⟨b, hb, fb⟩ := taken_many hD (ht (true, "System`Times", many "beg") (by decide +kernel))
  obtain ⟨c, hc, fc⟩ := taken_many hD (ht (true, "System`Times", many "end") (by decide +kernel))
  obtain ⟨a, ha, fa, na⟩ := taken_any hD (by decide) (by decide) (ht (false, "System`Power", any "a") (by decide +kernel))
  obtain ⟨m, hm, fm, nm⟩ := taken_opt hD (ht (false, "System`Power", opt (any "m")) (by decide +kernel))
  obtain ⟨n, hn, fn, nn⟩ := taken_opt hD (ht (false, "System`Power", opt (any "n")) (by decide +kernel))
  clear ht
  simp only [String.reduceAppend, Unbound] at *
  rule_sides [hb, hc, ha, hm, hn, hu]
  clear hu
  refine sameValue_call (by decide) (by rule_frag) (by first | assumption | simp [hasHead]) fun v hv => ?_
  rule_hyp [na, nm, nn] at hv
  obtain ⟨b', hb', r, ⟨p, ⟨xa, hxa, xm, hxm, hp⟩, r2, ⟨q, ⟨xa', hxa', xn, hxn, hq⟩, c', hc', rfl⟩, rfl⟩, rfl⟩ := hv
  rw [hxa] at hxa'
  cases hxa'
  rule_goal [na, nm, nn, hb', hxa, hxm, hxn, hc', add_zero, powValue_add hp hq]
  ring

theorem times_1 : SoundPair V A D (timesRules[1]'(by decide)) := by
  refine sound_plain hL (by decide +kernel) fun ρ ht hu => ?_
  obtain ⟨wa, ha, fa, na, ga⟩ := taken_anyOf hD (by decide) (by decide) (ht (false, "System`Power", anyOf "a" "Integer") (by decide +kernel))
  obtain ⟨a, rfl⟩ := frag_integer fa ga
  obtain ⟨b, hb, fb⟩ := taken_many hD (ht (true, "System`Times", many "inner") (by decide +kernel))
  obtain ⟨n, hn, fn, nn, tn⟩ := taken_testedAny hD (env_power hD).1 (by decide) (ht (false, "System`Power", .expr [S "PatternTest", any "n", var "wouldntBeLessThanNegOne"]) (by decide +kernel))
  obtain ⟨c, hc, fc⟩ := taken_many hD (ht (true, "System`Times", many "end") (by decide +kernel))
  clear ht
  simp only [String.reduceAppend, Unbound] at *
  rule_sides [ha, hb, hn, hc, hu]
  clear hu
  refine sameValue_call (by decide) (by rule_frag) (by first | assumption | simp [hasHead]) fun v hv => ?_
  rule_hyp [na, nn] at hv
  obtain ⟨p, ⟨ha0, rfl⟩, r, ⟨b', hb', r2, ⟨q, ⟨xn, hxn, hq⟩, c', hc', rfl⟩, rfl⟩, rfl⟩ := hv
  rule_goal [na, nn, hb', hxn, hc', powValue_add hq (powValue_neg_one_some ha0)]
  ring

theorem times_2 : SoundPair V A D (timesRules[2]'(by decide)) := by
  refine sound_plain hL (by decide +kernel) fun ρ ht hu => ?_
  obtain ⟨wd, hd, fd, nd, gd⟩ := taken_anyOf hD (by decide) (by decide) (ht (false, "System`Power", anyOf "den" "Integer") (by decide +kernel))
  obtain ⟨d, rfl⟩ := frag_integer fd gd
  obtain ⟨wn, hn, fn, nn, gn⟩ := taken_anyOf hD (by decide) (by decide) (ht (false, "System`Times", anyOf "num" "Integer") (by decide +kernel))
  obtain ⟨n, rfl⟩ := frag_integer fn gn
  obtain ⟨r, hr, fr⟩ := taken_many hD (ht (false, "System`Times", many "rest") (by decide +kernel))
  clear ht
  simp only [String.reduceAppend, Unbound] at *
  rule_sides [hd, hn, hr, hu]
  clear hu
  refine sameValue_call (by decide) (by rule_frag) (by first | assumption | simp [hasHead]) fun v hv => ?_
  rule_hyp [nd, nn] at hv
  obtain ⟨p, hp, r2, ⟨c', hc', rfl⟩, rfl⟩ := hv
  obtain ⟨h0, rfl⟩ := powValue_neg_one hp
  rule_goal [nd, nn, hc', if_neg h0]
  ring

theorem times_3 : SoundPair V A D (timesRules[3]'(by decide)) := by
  refine sound_plain hL (by decide +kernel) fun ρ ht hu => ?_
  obtain ⟨r, hr, fr⟩ := taken_many hD (ht (false, "System`Times", many "rest") (by decide +kernel))
  clear ht
  simp only [String.reduceAppend, Unbound] at *
  rule_sides [hr, hu]
  clear hu
  refine sameValue_call (by decide) (by rule_frag) (by first | assumption | simp [hasHead]) fun v hv => ?_
  rule_hyp [] at hv

theorem times_4 : SoundPair V A D (timesRules[4]'(by decide)) := by
  refine sound_cond hL (by decide +kernel) fun ρ ht hu => ?_
  obtain ⟨wa, ha, fa, na, ga, ta⟩ := taken_tested hD (by decide) (by decide) (by decide) (ht (false, "System`Power", tested (anyOf "a" "Integer") "Negative") (by decide +kernel))
  obtain ⟨a, rfl⟩ := frag_integer fa ga
  obtain ⟨b, hb, fb, nb, gb⟩ := taken_anyOf hD (by decide) (by decide) (ht (false, "System`Power", anyOf "b" "Rational") (by decide +kernel))
  obtain ⟨wc, hc, fc, nc, gc⟩ := taken_anyOf hD (by decide) (by decide) (ht (false, "System`Power", anyOf "c" "Integer") (by decide +kernel))
  obtain ⟨c, rfl⟩ := frag_integer fc gc
  obtain ⟨d, hd, fd, nd, gd⟩ := taken_anyOf hD (by decide) (by decide) (ht (false, "System`Power", anyOf "d" "Rational") (by decide +kernel))
  obtain ⟨r, hr, fr⟩ := taken_many hD (ht (false, "System`Times", many "rest") (by decide +kernel))
  clear ht
  simp only [String.reduceAppend, Unbound] at *
  refine ⟨by rule_sides [ha, hb, hc, hd, hr, hu]; rule_frag, fun hcond => ?_⟩
  replace hcond : A.truth (subst ρ _) = true := hcond
  rule_sides [ha, hb, hc, hd, hr, hu]
  simp [Shipped.call, Shipped.var, Shipped.neg, Shipped.mul, S, subst, substL, ha, hb, hc, hd, hr, hu] at hcond
  clear hu
  refine sameValue_call (by decide) (by rule_frag) (by first | assumption | simp [hasHead]) fun v hv => ?_
  rule_hyp [na, nb, nc, nd] at hv
  obtain ⟨p, ⟨xb, hxb, hp⟩, r', ⟨q, ⟨xd, hxd, hq⟩, c', hc', rfl⟩, rfl⟩ := hv
  obtain ⟨h1, h2⟩ := hT.both _ _ hcond
  have hneg := hT.negative a ta
  have e1 : (a : ℂ) = -1 * (c * 1) := hT.equal _ _ _ _ h1 (val_int V a) (by rule_goal [])
  have e2 : xb = -1 * xd := hT.equal _ _ _ _ h2 hxb (by rule_goal [na, nb, nc, nd, hxd])
  have hac : a = -c := by
    have : (a : ℂ) = ((-c : Int) : ℂ) := by rw [e1]; push_cast; ring
    exact_mod_cast this
  subst hac
  subst e2
  have hc0 : (0 : ℝ) < c := by exact_mod_cast (by omega : 0 < c)
  have hcn : (c : ℂ) ≠ 0 := by exact_mod_cast (by omega : c ≠ 0)
  push_cast at hp
  rw [powValue_ne (neg_ne_zero.2 hcn)] at hp
  rw [powValue_ne hcn] at hq
  cases hp
  cases hq
  rule_goal [na, nb, nc, nd, hxb, hc', powValue_ne (neg_ne_zero.2 (one_ne_zero (α := ℂ)))]
  have := neg_cpow hc0 (-1 * xd)
  rw [Complex.ofReal_intCast] at this
  rw [this, show (-1 * xd) = -xd by ring, Complex.cpow_neg (c : ℂ)]
  have hpow : (c : ℂ) ^ xd ≠ 0 := by simp [Complex.cpow_eq_zero_iff, hcn]
  field_simp

theorem times_5 : SoundPair V A D (timesRules[5]'(by decide)) := by
  refine sound_plain hL (by decide +kernel) fun ρ ht hu => ?_
  obtain ⟨b, hb, fb⟩ := taken_many hD (ht (true, "System`Times", many "beg") (by decide +kernel))
  obtain ⟨c, hc, fc⟩ := taken_many hD (ht (true, "System`Times", many "end") (by decide +kernel))
  obtain ⟨wa, ha, fa, na, ga⟩ := taken_anyOf hD (by decide) (by decide) (ht (false, "System`Power", anyOf "a" "Integer") (by decide +kernel))
  obtain ⟨a, rfl⟩ := frag_integer fa ga
  obtain ⟨m, hm, fm, nm, gm⟩ := taken_anyOf hD (by decide) (by decide) (ht (false, "System`Power", anyOf "m" "Rational") (by decide +kernel))
  obtain ⟨n, hn, fn, nn, gn⟩ := taken_anyOf hD (by decide) (by decide) (ht (false, "System`Power", anyOf "n" "Rational") (by decide +kernel))
  clear ht
  simp only [String.reduceAppend, Unbound] at *
  rule_sides [hb, hc, ha, hm, hn, hu]
  clear hu
  refine sameValue_call (by decide) (by rule_frag) (by first | assumption | simp [hasHead]) fun v hv => ?_
  rule_hyp [na, nm, nn] at hv
  obtain ⟨b', hb', r, ⟨p, ⟨xm, hxm, hp⟩, r2, ⟨q, ⟨xn, hxn, hq⟩, c', hc', rfl⟩, rfl⟩, rfl⟩ := hv
  rule_goal [na, nm, nn, hb', hxm, hxn, hc', add_zero, powValue_add hp hq]
  ring

theorem times_6 : SoundPair V A D (timesRules[6]'(by decide)) := by
  refine sound_plain hL (by decide +kernel) fun ρ ht hu => ?_
  obtain ⟨x, hx, fx, nx⟩ := taken_any hD (by decide) (by decide) (ht (false, "System`Sin", any "x") (by decide +kernel))
  obtain ⟨r, hr, fr⟩ := taken_many hD (ht (false, "System`Times", many "rest") (by decide +kernel))
  clear ht
  simp only [String.reduceAppend, Unbound] at *
  rule_sides [hx, hr, hu]
  clear hu
  refine sameValue_call (by decide) (by rule_frag) (by first | assumption | simp [hasHead]) fun v hv => ?_
  rule_hyp [nx, hS.op_sin, hS.op_cos] at hv
  obtain ⟨p, ⟨y, hy, rfl⟩, r', ⟨q, ⟨z, ⟨y', hy', rfl⟩, hq⟩, c', hc', rfl⟩, rfl⟩ := hv
  rw [hy] at hy'
  cases hy'
  obtain ⟨h0, rfl⟩ := powValue_neg_one hq
  rule_goal [nx, hy, hc', hS.op_tan, if_neg h0]
  rw [Complex.tan_eq_sin_div_cos]
  ring

theorem times_7 : SoundPair V A D (timesRules[7]'(by decide)) := by
  refine sound_plain hL (by decide +kernel) fun ρ ht hu => ?_
  obtain ⟨x, hx, fx, nx⟩ := taken_any hD (by decide) (by decide) (ht (false, "System`Sin", any "x") (by decide +kernel))
  obtain ⟨r, hr, fr⟩ := taken_many hD (ht (false, "System`Times", many "rest") (by decide +kernel))
  clear ht
  simp only [String.reduceAppend, Unbound] at *
  rule_sides [hx, hr, hu]
  clear hu
  refine sameValue_call (by decide) (by rule_frag) (by first | assumption | simp [hasHead]) fun v hv => ?_
  rule_hyp [nx, hS.op_sin, hS.op_cos] at hv
  obtain ⟨p, ⟨y, hy, rfl⟩, r', ⟨q, ⟨z, ⟨y', hy', rfl⟩, hq⟩, c', hc', rfl⟩, rfl⟩ := hv
  rw [hy] at hy'
  cases hy'
  obtain ⟨h0, rfl⟩ := powValue_neg_one hq
  rule_goal [nx, hy, hc', hS.op_cot, if_neg h0]
  ring

theorem times_8 : SoundPair V A D (timesRules[8]'(by decide)) := by
  refine sound_plain hL (by decide +kernel) fun ρ ht hu => ?_
  obtain ⟨a, ha, fa, na⟩ := taken_any hD (by decide) (by decide) (ht (false, "System`Cosh", any "a") (by decide +kernel))
  obtain ⟨wb, hb, fb, nb, gb, tb⟩ := taken_tested hD (by decide) (by decide) (by decide) (ht (false, "System`Power", tested (anyOf "b" "Integer") "Positive") (by decide +kernel))
  obtain ⟨b, rfl⟩ := frag_integer fb gb
  obtain ⟨r, hr, fr⟩ := taken_many hD (ht (false, "System`Times", many "rest") (by decide +kernel))
  clear ht
  simp only [String.reduceAppend, Unbound] at *
  rule_sides [ha, hb, hr, hu]
  clear hu
  refine sameValue_call (by decide) (by rule_frag) (by first | assumption | simp [hasHead]) fun v hv => ?_
  rule_hyp [na, nb, hS.op_cosh, hS.op_csch] at hv
  obtain ⟨p, ⟨y, hy, rfl⟩, r', ⟨q, ⟨z, ⟨y', hy', h0, rfl⟩, hq⟩, c', hc', rfl⟩, rfl⟩ := hv
  rw [hy] at hy'
  cases hy'
  have h1 : 1 / Complex.sinh y ≠ 0 := one_div_ne_zero h0
  rule_goal [na, nb, hy, hc', hS.op_coth, hS.op_csch, if_neg h0, powValue_add hq (powValue_neg_one_some h1)]
  field_simp

theorem times_sound : ∀ r ∈ timesRules, SoundPair V A D r := by
  intro r hr
  simp only [timesRules, List.mem_cons, List.not_mem_nil, or_false] at hr
  rcases hr with rfl | rfl | rfl | rfl | rfl | rfl | rfl | rfl | rfl
  · exact times_0 hS hT hD hL
  · exact times_1 hS hT hD hL
  · exact times_2 hS hT hD hL
  · exact times_3 hS hT hD hL
  · exact times_4 hS hT hD hL
  · exact times_5 hS hT hD hL
  · exact times_6 hS hT hD hL
  · exact times_7 hS hT hD hL
  · exact times_8 hS hT hD hL

end
end Expreduce
