import Verif.Proofs.NumTheory
import Verif.Spec.CPower
import Mathlib.Tactic.FieldSimp

namespace Expreduce
open Ex

theorem cval_times (l : List Ex) : cval (.expr (S "Times" :: l)) = (l.map cval).prod := by
  have : ∀ l, cprod l = (l.map cval).prod := by
    intro l
    induction l with
    | nil => simp [cprod]
    | cons a as ih => simp [cprod, ih]
  simp [cval, this]

theorem cval_power (a b : Ex) : cval (.expr [S "Power", a, b]) = cval a ^ cval b := by
  have : S "Power" ≠ S "Times" := by decide
  simp [cval, cpow2, this]

theorem cpow_real (b : ℝ) (hb : 0 ≤ b) (m n : ℤ) : ((b : ℝ) : ℂ) ^ ((m : ℂ) / (n : ℂ)) = ((b ^ ((m : ℝ) / (n : ℝ)) : ℝ) : ℂ) := by
  rw [Complex.ofReal_cpow hb]; push_cast; rfl

/-- Product of the bases raised to their exponents. -/
def basesProd (l : List (Nat × Int)) : Int := (l.map (fun kb => kb.2 ^ kb.1)).prod

theorem basesAdd_prod (l : List (Nat × Int)) (t : Int × Nat) : basesProd (basesAdd l t) = basesProd l * t.1 ^ t.2 := by
  induction l with
  | nil => simp [basesAdd, basesProd]
  | cons a as ih =>
    obtain ⟨k, b⟩ := a
    obtain ⟨p, k'⟩ := t
    unfold basesAdd
    split
    · rename_i h; subst h; simp only [basesProd, List.map, List.prod_cons, mul_pow]; ring
    · simp only [basesProd, List.map, List.prod_cons] at ih ⊢; rw [ih]; ring

theorem basesAdd_pos (l : List (Nat × Int)) (t : Int × Nat) (h : ∀ x ∈ l, 0 < x.2) (ht : 0 < t.1) : ∀ x ∈ basesAdd l t, 0 < x.2 := by
  induction l with
  | nil => simpa [basesAdd] using ht
  | cons a as ih =>
    obtain ⟨k, b⟩ := a
    obtain ⟨p, k'⟩ := t
    unfold basesAdd
    split
    · intro x hx
      rcases List.mem_cons.1 hx with rfl | hx
      · exact Int.mul_pos (h (k, b) (by simp)) ht
      · exact h x (by simp [hx])
    · intro x hx
      rcases List.mem_cons.1 hx with rfl | hx
      · exact h (k, b) (by simp)
      · exact ih (fun x hx => h x (by simp [hx])) x hx

theorem bases_fold (t : List (Int × Nat)) (l : List (Nat × Int)) (hl : ∀ x ∈ l, 0 < x.2) (ht : ∀ x ∈ t, 0 < x.1) :
    basesProd (t.foldl basesAdd l) = basesProd l * tallyProd t ∧ ∀ x ∈ t.foldl basesAdd l, 0 < x.2 := by
  induction t generalizing l with
  | nil => exact ⟨by simp [tallyProd], hl⟩
  | cons a as ih =>
    obtain ⟨h1, h2⟩ := ih (basesAdd l a) (basesAdd_pos l a hl (ht a (by simp))) (fun x hx => ht x (by simp [hx]))
    refine ⟨?_, h2⟩
    rw [List.foldl_cons, h1, basesAdd_prod]
    simp only [tallyProd, List.map, List.prod_cons]; ring

theorem cval_extract (l : List (Nat × Int)) (hl : ∀ x ∈ l, 0 < x.2) (m : Int) (n : Nat) (hn : n ≠ 0) :
    cval (extractPowerEx l m n) = ((basesProd l : Int) : ℂ) ^ ((m : ℂ) / (n : ℂ)) ∧ 0 < basesProd l := by
  unfold extractPowerEx
  rw [cval_times, List.map_map]
  induction l with
  | nil => simp [basesProd]
  | cons a as ih =>
    obtain ⟨k, b⟩ := a
    obtain ⟨ih1, ih2⟩ := ih (fun x hx => hl x (by simp [hx]))
    have hb : 0 < b := hl (k, b) (by simp)
    have hprod : basesProd ((k, b) :: as) = b ^ k * basesProd as := by simp [basesProd]
    refine ⟨?_, by rw [hprod]; positivity⟩
    rw [List.map_cons, List.prod_cons, ih1, hprod]
    simp only [Function.comp]
    rw [cval_power]
    simp only [cval]
    have hbR : (0 : ℝ) ≤ (b : ℝ) := by exact_mod_cast hb.le
    have hpR : (0 : ℝ) ≤ ((basesProd as : Int) : ℝ) := by exact_mod_cast ih2.le
    have e1 : ((b : Int) : ℂ) = (((b : Int) : ℝ) : ℂ) := by simp
    have e2 : ((basesProd as : Int) : ℂ) = (((basesProd as : Int) : ℝ) : ℂ) := by simp
    have e3 : (((b ^ k * basesProd as : Int)) : ℂ) = ((((b : ℝ) ^ k * (basesProd as : ℝ)) : ℝ) : ℂ) := by push_cast; rfl
    have e4 : (((m * (k : Int) : Int)) : ℂ) / ((n : Int) : ℂ) = (((m * (k : Int) : Int)) : ℂ) / (((n : Int) : Int) : ℂ) := rfl
    rw [e3]
    have c1 := cpow_real (b : ℝ) hbR (m * k) (n : Int)
    have c2 := cpow_real (basesProd as : ℝ) hpR m (n : Int)
    have c3 := cpow_real ((b : ℝ) ^ k * (basesProd as : ℝ)) (by positivity) m (n : Int)
    simp only [Complex.ofReal_intCast, Int.cast_natCast] at c1 c2 c3 ⊢
    rw [c1, c2, c3, ← Complex.ofReal_mul]
    congr 1
    rw [Real.mul_rpow (by positivity) hpR, ← Real.rpow_natCast (b : ℝ) k, ← Real.rpow_mul hbR]
    congr 2
    push_cast; ring

theorem basesProd_perm {l l' : List (Nat × Int)} (h : l.Perm l') : basesProd l = basesProd l' := (h.map _).prod_eq

/-- Root: `r^n = x` gives `r^m = x^(m/n)`. -/
theorem cpow_root (r x n : Nat) (hn : n ≠ 0) (h : r ^ n = x) (m : Int) :
    ((r : Int) : ℂ) ^ (m : ℂ) = ((x : Int) : ℂ) ^ ((m : ℂ) / (n : ℂ)) := by
  have hr : (0 : ℝ) ≤ (r : ℝ) := by positivity
  have c1 := cpow_real (r : ℝ) hr m 1
  have c2 := cpow_real (x : ℝ) (by positivity) m (n : Int)
  simp only [Complex.ofReal_natCast, Int.cast_natCast, Int.cast_one, div_one] at c1 c2 ⊢
  rw [c1, c2]
  congr 1
  rw [← h]
  push_cast
  rw [← Real.rpow_natCast (r : ℝ) n, ← Real.rpow_mul hr]
  congr 1
  have : (n : ℝ) ≠ 0 := by exact_mod_cast hn
  field_simp

/-- Pulling a power of two out of a negative radicand. -/
theorem cpow_pull (rad : ℕ) (hrad : rad ≠ 0) (n : Nat) (hn : n ≠ 0) (m : Int) :
    ((-(2 ^ n * (rad : Int)) : Int) : ℂ) ^ ((m : ℂ) / (n : ℂ)) = (2 : ℂ) ^ m * ((-(rad : Int) : Int) : ℂ) ^ ((m : ℂ) / (n : ℂ)) := by
  have hz : ((-(rad : Int) : Int) : ℂ) ≠ 0 := by
    have : (-(rad : Int)) ≠ 0 := by omega
    exact_mod_cast this
  have e : ((-(2 ^ n * (rad : Int)) : Int) : ℂ) = (((2 : ℝ) ^ n : ℝ) : ℂ) * ((-(rad : Int) : Int) : ℂ) := by push_cast; ring
  have hne : (((2 : ℝ) ^ n : ℝ) : ℂ) * ((-(rad : Int) : Int) : ℂ) ≠ 0 := mul_ne_zero (by simp) hz
  rw [e, Complex.cpow_def_of_ne_zero hne, Complex.cpow_def_of_ne_zero hz, Complex.log_ofReal_mul (by positivity) hz, add_mul,
    Complex.exp_add]
  congr 1
  rw [Real.log_pow]
  have h2 : (2 : ℂ) ^ m = (2 : ℂ) ^ (m : ℂ) := (Complex.cpow_intCast 2 m).symm
  rw [h2, Complex.cpow_def_of_ne_zero (by norm_num)]
  congr 1
  have hn' : (n : ℂ) ≠ 0 := by exact_mod_cast hn
  have hl : ((Real.log 2 : ℝ) : ℂ) = Complex.log 2 := by
    rw [Complex.ofReal_log (by norm_num)]; norm_num
  push_cast
  rw [hl]
  field_simp

theorem tail_of_neg (f : Nat) (order : List (Nat × Int) → List (Nat × Int)) (x m : Int) (n : Nat) (hx : x < 0) :
    powerIntRat f order x m n = some (if x.natAbs % 2 ^ n = 0 then
      .expr [S "Times", (if m < 0 then .rat 1 2 else .int 2), .expr [S "Power", .int (-((x.natAbs / 2 ^ n : Nat) : Int)), .rat m n]]
      else .expr [S "Power", .int x, .rat m n]) := by
  unfold powerIntRat
  rw [if_neg (by omega)]
  unfold radSimp
  split
  · rename_i h
    split at h
    · rename_i h0
      simp only [Option.some.injEq, Prod.mk.injEq] at h
      obtain ⟨rfl, rfl⟩ := h
      rw [if_pos h0]
      simp [hx]
    · simp at h
  · rename_i h
    split at h
    · simp at h
    · rename_i h0; rw [if_neg h0]

end Expreduce
