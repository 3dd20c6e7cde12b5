import Verif.Model.Round
import Mathlib.Tactic.Linarith
import Mathlib.Tactic.NormNum
import Mathlib.Tactic.Ring
import Mathlib.Tactic.Positivity
import Mathlib.Tactic.FieldSimp

/-! Helper lemmas about `rne` and `rnd53`. -/

namespace Expreduce

theorem rne_cases (q : Rat) : (rne q : Rat) ≤ q + 1/2 ∧ q - 1/2 ≤ (rne q : Rat) := by
  have h1 := Int.floor_le q
  have h2 := Int.lt_floor_add_one q
  unfold rne
  simp only
  split
  · constructor <;> linarith
  · split
    · push_cast; constructor <;> linarith
    · split
      · constructor <;> linarith
      · push_cast; constructor <;> linarith

theorem rne_int (n : Int) : rne (n : Rat) = n := by
  unfold rne; simp

theorem rne_mono {x y : Rat} (h : x ≤ y) : rne x ≤ rne y := by
  have hf : ⌊x⌋ ≤ ⌊y⌋ := Int.floor_mono h
  rcases lt_or_eq_of_le hf with hlt | heq
  · have a1 : rne x ≤ ⌊x⌋ + 1 := by unfold rne; simp only; split <;> [skip; split <;> [skip; split]] <;> omega
    have a2 : ⌊y⌋ ≤ rne y := by unfold rne; simp only; split <;> [skip; split <;> [skip; split]] <;> omega
    omega
  · unfold rne
    simp only [heq]
    split
    · split <;> [skip; split <;> [skip; split]] <;> omega
    · rename_i h1
      have h2 : ¬ (y - (⌊y⌋:Rat) < 1/2) := by intro h3; exact h1 (by linarith)
      rw [if_neg h2]
      split
      · rename_i h4
        have : 1/2 < y - (⌊y⌋:Rat) := by linarith
        rw [if_pos this]
      · split
        · split <;> [skip; skip] <;> omega
        · rename_i h5
          split
          · omega
          · omega

theorem ulp53_pos (q : Rat) : 0 < ulp53 q := by unfold ulp53; exact zpow_pos (by norm_num) _

theorem pow_log_le {q : Rat} (h : 0 < q) : (2:Rat) ^ (Int.log 2 q) ≤ q := by
  have := Int.zpow_log_le_self (b := 2) (r := q) (by norm_num) h
  simpa using this

theorem lt_pow_log {q : Rat} : q < (2:Rat) ^ (Int.log 2 q + 1) := by
  have := Int.lt_zpow_succ_log_self (R := Rat) (b := 2) (by norm_num) q
  simpa using this

theorem rnd53_pos_bounds {q : Rat} (h : 0 < q) :
    (2:Rat) ^ (Int.log 2 q) ≤ rnd53 q ∧ rnd53 q ≤ (2:Rat) ^ (Int.log 2 q + 1) := by
  have hq : q ≠ 0 := ne_of_gt h
  have hu := ulp53_pos q
  have hue : ulp53 q = (2:Rat) ^ (Int.log 2 q - 52) := by unfold ulp53; rw [abs_of_pos h]
  have e1 : (2:Rat) ^ (Int.log 2 q) = ((2^52 : Int) : Rat) * ulp53 q := by
    rw [hue, zpow_sub₀ (by norm_num)]; push_cast; field_simp
  have e2 : (2:Rat) ^ (Int.log 2 q + 1) = ((2^53 : Int) : Rat) * ulp53 q := by
    rw [zpow_add₀ (by norm_num), e1]; push_cast; ring
  unfold rnd53
  rw [if_neg hq, e1, e2]
  have m1 : ((2^52:Int):Rat) ≤ q / ulp53 q := by
    rw [le_div_iff₀ hu, ← e1]; exact pow_log_le h
  have m2 : q / ulp53 q ≤ ((2^53:Int):Rat) := by
    rw [div_le_iff₀ hu, ← e2]; exact le_of_lt lt_pow_log
  have r1 := rne_mono m1
  have r2 := rne_mono m2
  rw [rne_int] at r1 r2
  constructor
  · exact mul_le_mul_of_nonneg_right (by exact_mod_cast r1) hu.le
  · exact mul_le_mul_of_nonneg_right (by exact_mod_cast r2) hu.le

theorem rnd53_mono_pos {x y : Rat} (hx : 0 < x) (h : x ≤ y) : rnd53 x ≤ rnd53 y := by
  have hy : 0 < y := lt_of_lt_of_le hx h
  have hl : Int.log 2 x ≤ Int.log 2 y := Int.log_mono_right hx h
  rcases lt_or_eq_of_le hl with hlt | heq
  · refine le_trans (rnd53_pos_bounds hx).2 (le_trans ?_ (rnd53_pos_bounds hy).1)
    exact zpow_le_zpow_right₀ (by norm_num) hlt
  · have hu : ulp53 x = ulp53 y := by unfold ulp53; rw [abs_of_pos hx, abs_of_pos hy, heq]
    unfold rnd53
    rw [if_neg (ne_of_gt hx), if_neg (ne_of_gt hy), hu]
    have := rne_mono (x := x / ulp53 y) (y := y / ulp53 y) (by
      exact div_le_div_of_nonneg_right h (ulp53_pos y).le)
    exact mul_le_mul_of_nonneg_right (by exact_mod_cast this) (ulp53_pos y).le

theorem floor_half_neg (q : Rat) (h : q ≠ ⌊q⌋) : ⌊-q⌋ = -⌊q⌋ - 1 := by
  rw [Int.floor_eq_iff]
  have h1 := Int.floor_le q
  have h2 := Int.lt_floor_add_one q
  have h3 : (⌊q⌋:Rat) < q := lt_of_le_of_ne h1 (fun e => h e.symm)
  push_cast
  constructor <;> linarith

theorem rne_neg (q : Rat) : rne (-q) = - rne q := by
  by_cases h : q = ⌊q⌋
  · rw [h]; have := rne_int (-⌊q⌋); push_cast at this; rw [this, rne_int]
  · have hf := floor_half_neg q h
    unfold rne
    simp only [hf]
    push_cast
    by_cases a : q - (⌊q⌋:Rat) < 1/2
    · have b : ¬ (-q - (-(⌊q⌋:Rat) - 1) < 1/2) := by linarith
      have c : 1/2 < -q - (-(⌊q⌋:Rat) - 1) := by linarith
      rw [if_neg b, if_pos c, if_pos a]; ring
    · by_cases b : 1/2 < q - (⌊q⌋:Rat)
      · have c : -q - (-(⌊q⌋:Rat) - 1) < 1/2 := by linarith
        rw [if_pos c, if_neg a, if_pos b]; ring
      · have c : ¬ (-q - (-(⌊q⌋:Rat) - 1) < 1/2) := by linarith
        have d : ¬ (1/2 < -q - (-(⌊q⌋:Rat) - 1)) := by linarith
        rw [if_neg c, if_neg d, if_neg a, if_neg b]
        split <;> split <;> omega

theorem rnd53_neg (q : Rat) : rnd53 (-q) = - rnd53 q := by
  unfold rnd53
  have hu : ulp53 (-q) = ulp53 q := by unfold ulp53; rw [abs_neg]
  by_cases h : q = 0
  · simp [h]
  · rw [if_neg (by simpa using h), if_neg h, hu, neg_div, rne_neg]; push_cast; ring

theorem rnd53_zero : rnd53 0 = 0 := by simp [rnd53]

theorem rnd53_pos {q : Rat} (h : 0 < q) : 0 < rnd53 q :=
  lt_of_lt_of_le (zpow_pos (by norm_num) _) (rnd53_pos_bounds h).1

/-- Rounding is monotone. -/
theorem rnd53_mono {x y : Rat} (h : x ≤ y) : rnd53 x ≤ rnd53 y := by
  rcases lt_trichotomy 0 x with hx | hx | hx
  · exact rnd53_mono_pos hx h
  · subst hx
    rcases lt_or_eq_of_le h with hy | hy
    · rw [rnd53_zero]; exact (rnd53_pos hy).le
    · rw [← hy]
  · have hx' : rnd53 x < 0 := by
      have := rnd53_pos (q := -x) (by linarith)
      rw [rnd53_neg] at this; linarith
    rcases lt_trichotomy 0 y with hy | hy | hy
    · exact (lt_trans hx' (rnd53_pos hy)).le
    · rw [← hy, rnd53_zero]; exact hx'.le
    · have := rnd53_mono_pos (x := -y) (y := -x) (by linarith) (by linarith)
      rw [rnd53_neg, rnd53_neg] at this; linarith

/-- Integers of magnitude up to `2^53` are represented exactly. -/
theorem rnd53_int_exact (n : Int) (h : |n| ≤ 2 ^ 53) : rnd53 (n : Rat) = n := by
  by_cases h0 : n = 0
  · simp [h0, rnd53]
  have key : ∃ k : Int, (n : Rat) / ulp53 (n : Rat) = k := by
    have habs : (0:Rat) < |(n:Rat)| := by simpa using h0
    have hle : Int.log 2 |(n:Rat)| ≤ 53 := by
      by_contra hc
      push Not at hc
      have h1 := pow_log_le habs
      have h2 : (2:Rat) ^ (54:Int) ≤ (2:Rat) ^ (Int.log 2 |(n:Rat)|) :=
        zpow_le_zpow_right₀ (by norm_num) (by omega)
      have h3 : |(n:Rat)| ≤ 2 ^ 53 := by exact_mod_cast h
      norm_num at h2 h3
      linarith
    by_cases h53 : Int.log 2 |(n:Rat)| = 53
    · -- then |n| = 2^53
      have h1 := pow_log_le habs
      rw [h53] at h1
      have h3 : |(n:Rat)| ≤ 2 ^ 53 := by exact_mod_cast h
      have h4 : |(n:Rat)| = 2 ^ 53 := le_antisymm h3 (by exact_mod_cast h1)
      unfold ulp53
      rw [h53]
      rcases abs_eq (by norm_num : (0:Rat) ≤ 2^53) |>.1 h4 with e | e
      · exact ⟨2^52, by rw [e]; norm_num⟩
      · exact ⟨-2^52, by rw [e]; norm_num⟩
    · refine ⟨n * 2 ^ (52 - Int.log 2 |(n:Rat)|).toNat, ?_⟩
      unfold ulp53
      have : (52 - Int.log 2 |(n:Rat)|) = ((52 - Int.log 2 |(n:Rat)|).toNat : Int) := by
        rw [Int.toNat_of_nonneg]; omega
      rw [show Int.log 2 |(n:Rat)| - 52 = -(52 - Int.log 2 |(n:Rat)|) by ring, zpow_neg, div_inv_eq_mul]
      push_cast
      rw [← zpow_natCast, ← this]
  obtain ⟨k, hk⟩ := key
  unfold rnd53
  rw [if_neg (by exact_mod_cast h0), hk, rne_int, ← hk]
  field_simp [(ulp53_pos (n:Rat)).ne']

end Expreduce
