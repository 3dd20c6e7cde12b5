import Verif.Model.Isolate
import Verif.Spec.Isolate
import Mathlib.RingTheory.RootsOfUnity.PrimitiveRoots

/-! Lemmas for C127. -/

namespace Expreduce.Iso
open Expreduce Ex

variable {O : Ex → Option ℂ} {σ : String → ℂ} {x : String}

theorem val_plus (l : List Ex) : val O σ (.expr (S "Plus" :: l)) = sumVal O σ l := by rw [val]; simp
theorem val_times (l : List Ex) : val O σ (.expr (S "Times" :: l)) = prodVal O σ l := by rw [val]; rw [if_neg (by decide), if_pos rfl]
theorem val_pow (a b : Ex) : val O σ (pow a b) = (val O σ a).bind (fun v => (val O σ b).bind (fun w => powDef v w)) := by
  unfold pow
  rw [val, if_neg (by decide), if_neg (by decide), if_pos rfl, powVal]

mutual
/-- An expression without the variable has the same value whatever the variable is. -/
theorem val_free (z : ℂ) : ∀ e : Ex, occ x e = 0 → val O (setTo σ x z) e = val O σ e
  | .int _, _ => by rw [val, val]
  | .rat _ _, _ => by rw [val, val]
  | .flt _, _ => by rw [val.eq_def]; simp only; rw [val.eq_def]
  | .str _, _ => by rw [val.eq_def]; simp only; rw [val.eq_def]
  | .cplx a b, _ => by
    cases a <;> cases b <;> (rw [val.eq_def]; simp only; rw [val.eq_def])
  | .sym s, h => by
    rw [val, val]
    have : s ≠ x := by intro e; simp [occ, e] at h
    simp [setTo, this]
  | .expr [], _ => by rw [val.eq_def]; simp only; rw [val.eq_def]
  | .expr (h :: args), ho => by
    have ho : occL x args = 0 := by simpa [occ] using ho
    rw [val, val, sum_free z args ho, prod_free z args ho, pow_free z args ho]
theorem sum_free (z : ℂ) : ∀ l : List Ex, occL x l = 0 → sumVal O (setTo σ x z) l = sumVal O σ l
  | [], _ => by rw [sumVal, sumVal]
  | a :: as, h => by
    simp only [occL, Nat.add_eq_zero_iff] at h
    rw [sumVal, sumVal, val_free z a h.1, sum_free z as h.2]
theorem prod_free (z : ℂ) : ∀ l : List Ex, occL x l = 0 → prodVal O (setTo σ x z) l = prodVal O σ l
  | [], _ => by rw [prodVal, prodVal]
  | a :: as, h => by
    simp only [occL, Nat.add_eq_zero_iff] at h
    rw [prodVal, prodVal, val_free z a h.1, prod_free z as h.2]
theorem pow_free (z : ℂ) : ∀ l : List Ex, occL x l = 0 → powVal O (setTo σ x z) l = powVal O σ l
  | [], _ => by rw [powVal.eq_def]; simp only; rw [powVal.eq_def]
  | [a], _ => by rw [powVal.eq_def]; simp only; rw [powVal.eq_def]
  | [a, b], h => by
    simp only [occL, Nat.add_eq_zero_iff] at h
    rw [powVal, powVal, val_free z a h.1, val_free z b h.2.1]
  | a :: b :: c :: l, _ => by rw [powVal.eq_def]; simp only; rw [powVal.eq_def]
end

/-- A list with one occurrence has one element with one occurrence, and no others. -/
theorem split_one : ∀ {l : List Ex}, occL x l = 1 → ∃ a, l.filter (fun a => occ x a != 0) = [a] ∧ occ x a = 1 ∧ occL x (l.filter (fun a => occ x a == 0)) = 0
  | [], h => by simp [occL] at h
  | a :: as, h => by
    have zero : ∀ l : List Ex, occL x l = 0 → l.filter (fun a => occ x a != 0) = [] ∧ l.filter (fun a => occ x a == 0) = l := by
      intro l
      induction l with
      | nil => simp
      | cons b l ih =>
        intro hl
        simp only [occL, Nat.add_eq_zero_iff] at hl
        obtain ⟨h1, h2⟩ := ih hl.2
        simp [hl.1, h1, h2]
    simp only [occL] at h
    by_cases ha : occ x a = 0
    · rw [ha, Nat.zero_add] at h
      obtain ⟨b, h1, h2, h3⟩ := split_one h
      exact ⟨b, by simp [ha, h1], h2, by simp [ha, occL, h3]⟩
    · have h1 : occ x a = 1 := by omega
      have h0 : occL x as = 0 := by omega
      obtain ⟨e1, e2⟩ := zero as h0
      exact ⟨a, by simp [h1, e1], h1, by simp [h1, e2, h0]⟩

theorem occ_plusOf (l : List Ex) : occ x (plusOf l) = occL x l := by
  unfold plusOf; split <;> simp [occ, occL]
theorem occ_timesOf (l : List Ex) : occ x (timesOf l) = occL x l := by
  unfold timesOf; split <;> simp [occ, occL]

theorem val_plusOf (l : List Ex) : val O σ (plusOf l) = sumVal O σ l := by
  unfold plusOf; split
  · rw [sumVal, sumVal]; cases val O σ _ <;> simp
  · exact val_plus l
theorem val_timesOf (l : List Ex) : val O σ (timesOf l) = prodVal O σ l := by
  unfold timesOf; split
  · rw [prodVal, prodVal]; cases val O σ _ <;> simp
  · exact val_times l

/-- A sum splits into the parts that satisfy a test and those that do not. -/
theorem sum_split (p : Ex → Bool) : ∀ l : List Ex, sumVal O σ l = (sumVal O σ (l.filter p)).bind (fun v => (sumVal O σ (l.filter (fun a => !p a))).map (fun w => v + w))
  | [] => by simp [sumVal]
  | a :: as => by
    have ih := sum_split p as
    by_cases h : p a = true
    · simp only [List.filter_cons, h, if_true, Bool.not_true, Bool.false_eq_true, if_false, sumVal]
      rw [ih]
      cases val O σ a <;> cases sumVal O σ (as.filter p) <;> cases sumVal O σ (as.filter (fun a => !p a)) <;> simp [add_assoc]
    · have h : p a = false := by simpa using h
      simp only [List.filter_cons, h, Bool.false_eq_true, if_false, Bool.not_false, if_true, sumVal]
      rw [ih]
      cases val O σ a <;> cases sumVal O σ (as.filter p) <;> cases sumVal O σ (as.filter (fun a => !p a)) <;> simp [add_left_comm]

theorem prod_split (p : Ex → Bool) : ∀ l : List Ex, prodVal O σ l = (prodVal O σ (l.filter p)).bind (fun v => (prodVal O σ (l.filter (fun a => !p a))).map (fun w => v * w))
  | [] => by simp [prodVal]
  | a :: as => by
    have ih := prod_split p as
    by_cases h : p a = true
    · simp only [List.filter_cons, h, if_true, Bool.not_true, Bool.false_eq_true, if_false, prodVal]
      rw [ih]
      cases val O σ a <;> cases prodVal O σ (as.filter p) <;> cases prodVal O σ (as.filter (fun a => !p a)) <;> simp [mul_assoc]
    · have h : p a = false := by simpa using h
      simp only [List.filter_cons, h, Bool.false_eq_true, if_false, Bool.not_false, if_true, prodVal]
      rw [ih]
      cases val O σ a <;> cases prodVal O σ (as.filter p) <;> cases prodVal O σ (as.filter (fun a => !p a)) <;> simp [mul_left_comm]

/-! ### Powers and roots -/

theorem powDef_nat (a : ℂ) (n : ℕ) (h : n ≠ 0) : powDef a ((n : ℤ) : ℂ) = some (a ^ n) := by
  unfold powDef
  rw [if_neg (by rintro ⟨-, h2⟩; have : (n : ℝ) ≤ 0 := by simpa using h2
                 have : (0 : ℝ) < n := by exact_mod_cast Nat.pos_of_ne_zero h
                 linarith)]
  push_cast
  rw [Complex.cpow_natCast]

theorem powDef_inv (a : ℂ) : powDef a (((-1 : ℤ)) : ℂ) = if a = 0 then none else some a⁻¹ := by
  unfold powDef
  by_cases h : a = 0 <;> simp [h, Complex.cpow_neg_one]

theorem powDef_root (a : ℂ) (n : ℤ) (h : 0 < n) : powDef a (((1 : ℤ) : ℂ) / (n : ℂ)) = some (a ^ ((n : ℂ)⁻¹)) := by
  unfold powDef
  have e : (((1 : ℤ) : ℂ) / (n : ℂ)) = ((((n : ℝ)⁻¹ : ℝ)) : ℂ) := by push_cast; simp
  rw [if_neg (by
    rintro ⟨-, h2⟩
    rw [e, Complex.ofReal_re] at h2
    have : (0 : ℝ) < (n : ℝ)⁻¹ := by positivity
    linarith)]
  congr 2
  push_cast; simp

/-- The root of a value, as the program writes it. -/
theorem val_root {r : Ex} {v : ℂ} (hv : val O σ r = some v) (n : ℤ) (h : 0 < n) : val O σ (pow r (.rat 1 n)) = some (v ^ ((n : ℂ)⁻¹)) := by
  rw [val_pow, hv]
  have : val O σ (.rat 1 n) = some (((1 : ℤ) : ℂ) / (n : ℂ)) := by rw [val, if_neg (by omega)]
  rw [this]
  exact powDef_root v n h

theorem val_root1 (p q : ℤ) (hq : q ≠ 0) : val O σ (root1 p q) = some (((-1 : ℂ) ^ ((q : ℂ)⁻¹)) ^ p) := by
  unfold root1
  rw [val_pow]
  have h1 : val O σ (.int (-1)) = some (-1) := by rw [val]; simp
  have h2 : val O σ (.rat p q) = some ((p : ℂ) / (q : ℂ)) := by rw [val, if_neg hq]
  rw [h1, h2]
  simp only [Option.bind_some, powDef]
  rw [if_neg (by simp), ← Complex.cpow_int_mul, div_eq_mul_inv]

theorem root_ne (q : ℕ) (hq : 2 ≤ q) : (-1 : ℂ) ^ (((q : ℤ) : ℂ)⁻¹) ≠ -1 := by
  intro h
  have h1 : (-1 : ℂ) ^ (((q : ℤ) : ℂ)⁻¹) = Complex.exp (Real.pi * Complex.I * ((q : ℂ))⁻¹) := by
    rw [Complex.cpow_def_of_ne_zero (by norm_num), Complex.log_neg_one]; push_cast; rfl
  have him := congrArg Complex.im h
  have hqr : (2 : ℝ) ≤ q := by exact_mod_cast hq
  have h2 : (Real.pi * Complex.I * ((q : ℂ))⁻¹) = ((Real.pi / q : ℝ) : ℂ) * Complex.I := by push_cast; ring
  rw [h1, h2, Complex.exp_ofReal_mul_I_im] at him
  have hpos : 0 < Real.sin (Real.pi / q) := by
    apply Real.sin_pos_of_pos_of_lt_pi
    · have := Real.pi_pos; positivity
    · rw [div_lt_iff₀ (by linarith)]
      have := Real.pi_pos
      nlinarith
  have : (-1 : ℂ).im = 0 := by simp
  rw [this] at him
  linarith

theorem root_pow (v : ℂ) (q : ℕ) (hq : q ≠ 0) : (v ^ (((q : ℤ) : ℂ)⁻¹)) ^ q = v := by
  have := Complex.cpow_nat_inv_pow v hq
  simpa using this

/-- The `p`-th roots for a prime `p`, in terms of one of them and a root of unity that is not 1. -/
theorem prime_roots (p : ℕ) (hp : p.Prime) {w u z : ℂ} (hu : u ^ p = 1) (hu1 : u ≠ 1) (h : z ^ p = w ^ p) : ∃ i < p, z = u ^ i * w := by
  have : Fact p.Prime := ⟨hp⟩
  have hz : NeZero p := ⟨hp.ne_zero⟩
  by_cases hw : w = 0
  · rw [hw, zero_pow hp.ne_zero] at h
    exact ⟨0, hp.pos, by rw [pow_eq_zero_iff hp.ne_zero |>.1 h, hw]; simp⟩
  · have hprim : IsPrimitiveRoot u p := IsPrimitiveRoot.iff_orderOf.2 (orderOf_eq_prime hu hu1)
    have : (z / w) ^ p = 1 := by rw [div_pow, h, div_self (pow_ne_zero _ hw)]
    obtain ⟨i, hi, he⟩ := hprim.eq_pow_of_pow_eq_one this
    exact ⟨i, hi, by rw [he]; field_simp⟩

end Expreduce.Iso
