import Mathlib.Tactic.FieldSimp
import Mathlib.Tactic.LinearCombination
import Mathlib.Data.Complex.Basic

/-! The identities behind the formulas for equations of degree 2, 3 and 4. -/

namespace Expreduce

theorem quadratic_factor {a b c s : ℂ} (ha : a ≠ 0) (hs : s ^ 2 = b ^ 2 - 4 * a * c) (z : ℂ) :
    a * z ^ 2 + b * z + c = a * (z - (-b - s) / (2 * a)) * (z - (-b + s) / (2 * a)) := by
  field_simp
  linear_combination hs

theorem cubic_factor {d c b a s r k w : ℂ} (hd : d ≠ 0) (hr : r ≠ 0) (hk : k ^ 3 = 2) (hw : w ^ 2 = -3)
    (hs : s ^ 2 = 4 * (-c ^ 2 + 3 * b * d) ^ 3 + (-2 * c ^ 3 + 9 * b * c * d - 27 * a * d ^ 2) ^ 2)
    (hr3 : r ^ 3 = -2 * c ^ 3 + 9 * b * c * d - 27 * a * d ^ 2 + s) (z : ℂ) :
    d * z ^ 3 + c * z ^ 2 + b * z + a =
      d * (z - (-(c / (3 * d)) - k * (-c ^ 2 + 3 * b * d) / (3 * d * r) + r / (3 * k * d))) *
        (z - (-(c / (3 * d)) + (1 + w) * (-c ^ 2 + 3 * b * d) / (3 * k ^ 2 * d * r) - 1 / (6 * k * d) * (1 - w) * r)) *
        (z - (-(c / (3 * d)) + (1 - w) * (-c ^ 2 + 3 * b * d) / (3 * k ^ 2 * d * r) - 1 / (6 * k * d) * (1 + w) * r)) := by
  have hk0 : k ≠ 0 := by rintro rfl; norm_num at hk
  obtain ⟨A, hA⟩ : ∃ A, A = r / k := ⟨_, rfl⟩
  obtain ⟨B, hB⟩ : ∃ B, B = -(k * (-c ^ 2 + 3 * b * d) / r) := ⟨_, rfl⟩
  have hAB : A * B = -(-c ^ 2 + 3 * b * d) := by rw [hA, hB]; field_simp
  have hAA : A ^ 3 + B ^ 3 = -2 * c ^ 3 + 9 * b * c * d - 27 * a * d ^ 2 := by
    rw [hA, hB, neg_pow, div_pow, div_pow, mul_pow, hk]
    have h0 : r ^ 3 ≠ 0 := pow_ne_zero _ hr
    generalize r ^ 3 = R at *
    field_simp
    have : s = R - (-2 * c ^ 3 + 9 * b * c * d - 27 * a * d ^ 2) := by rw [hr3]; ring
    rw [this] at hs
    linear_combination hs
  have e1 : -(c / (3 * d)) - k * (-c ^ 2 + 3 * b * d) / (3 * d * r) + r / (3 * k * d) = (-c + A + B) / (3 * d) := by
    rw [hA, hB]; field_simp; ring
  have e2 : -(c / (3 * d)) + (1 + w) * (-c ^ 2 + 3 * b * d) / (3 * k ^ 2 * d * r) - 1 / (6 * k * d) * (1 - w) * r =
      (-c - (1 + w) / 2 * B - (1 - w) / 2 * A) / (3 * d) := by
    rw [hA, hB]; field_simp
    linear_combination (-6 * (1 + w) * (-c ^ 2 + 3 * b * d) ) * hk
  have e3 : -(c / (3 * d)) + (1 - w) * (-c ^ 2 + 3 * b * d) / (3 * k ^ 2 * d * r) - 1 / (6 * k * d) * (1 + w) * r =
      (-c - (1 - w) / 2 * B - (1 + w) / 2 * A) / (3 * d) := by
    rw [hA, hB]; field_simp
    linear_combination (-6 * (1 - w) * (-c ^ 2 + 3 * b * d)) * hk
  rw [e1, e2, e3]
  clear e1 e2 e3 hA hB hs hr3
  have h2 : (3 * d * z + c - A - B) * (3 * d * z + c + (1 + w) / 2 * B + (1 - w) / 2 * A) * (3 * d * z + c + (1 - w) / 2 * B + (1 + w) / 2 * A) =
      (3 * d * z + c) ^ 3 - 3 * (A * B) * (3 * d * z + c) - (A ^ 3 + B ^ 3) := by
    linear_combination ((-(3 * d * z + c) * (A - B) ^ 2 / 4 + (A + B) * (A - B) ^ 2 / 4)) * hw
  rw [hAB, hAA] at h2
  have h3 : d * (z - (-c + A + B) / (3 * d)) * (z - (-c - (1 + w) / 2 * B - (1 - w) / 2 * A) / (3 * d)) *
      (z - (-c - (1 - w) / 2 * B - (1 + w) / 2 * A) / (3 * d)) =
      ((3 * d * z + c - A - B) * (3 * d * z + c + (1 + w) / 2 * B + (1 - w) / 2 * A) * (3 * d * z + c + (1 - w) / 2 * B + (1 + w) / 2 * A)) / (27 * d ^ 2) := by
    field_simp
    ring
  rw [h3, h2]
  field_simp
  ring

theorem quartic_factor {e d c b a s r k u w1 w2 : ℂ} (he : e ≠ 0) (hr : r ≠ 0) (hu : u ≠ 0) (hk : k ^ 3 = 2)
    (hs : s ^ 2 = -4 * (c ^ 2 - 3 * b * d + 12 * a * e) ^ 3 + (2 * c ^ 3 - 9 * b * c * d + 27 * a * d ^ 2 + 27 * b ^ 2 * e - 72 * a * c * e) ^ 2)
    (hr3 : r ^ 3 = 2 * c ^ 3 - 9 * b * c * d + 27 * a * d ^ 2 + 27 * b ^ 2 * e - 72 * a * c * e + s)
    {y g : ℂ} (hy : y = k * (c ^ 2 - 3 * b * d + 12 * a * e) / (3 * e * r) + 1 / (3 * k * e) * r)
    (hu2 : u ^ 2 = d ^ 2 / (4 * e ^ 2) - 2 * c / (3 * e) + y)
    (hg : g = -(d ^ 3 / e ^ 3) + 4 * c * d / e ^ 2 - 8 * b / e)
    (hw1 : w1 ^ 2 = d ^ 2 / (2 * e ^ 2) - 4 * c / (3 * e) - y - g / (4 * u))
    (hw2 : w2 ^ 2 = d ^ 2 / (2 * e ^ 2) - 4 * c / (3 * e) - y + g / (4 * u)) (z : ℂ) :
    e * z ^ 4 + d * z ^ 3 + c * z ^ 2 + b * z + a =
      e * (z - (-(d / (4 * e)) - 1 / 2 * u - 1 / 2 * w1)) * (z - (-(d / (4 * e)) - 1 / 2 * u + 1 / 2 * w1)) *
        (z - (-(d / (4 * e)) + 1 / 2 * u - 1 / 2 * w2)) * (z - (-(d / (4 * e)) + 1 / 2 * u + 1 / 2 * w2)) := by
  have hk0 : k ≠ 0 := by rintro rfl; norm_num at hk
  have hcub : 27 * e ^ 3 * y ^ 3 = 9 * (c ^ 2 - 3 * b * d + 12 * a * e) * e * y + (2 * c ^ 3 - 9 * b * c * d + 27 * a * d ^ 2 + 27 * b ^ 2 * e - 72 * a * c * e) := by
    obtain ⟨A, hA⟩ : ∃ A, A = r / k := ⟨_, rfl⟩
    obtain ⟨B, hB⟩ : ∃ B, B = k * (c ^ 2 - 3 * b * d + 12 * a * e) / r := ⟨_, rfl⟩
    have hAB : A * B = (c ^ 2 - 3 * b * d + 12 * a * e) := by rw [hA, hB]; field_simp
    have hAA : A ^ 3 + B ^ 3 = 2 * c ^ 3 - 9 * b * c * d + 27 * a * d ^ 2 + 27 * b ^ 2 * e - 72 * a * c * e := by
      rw [hA, hB, div_pow, div_pow, mul_pow, hk]
      have h0 : r ^ 3 ≠ 0 := pow_ne_zero _ hr
      generalize r ^ 3 = R at *
      field_simp
      have : s = R - (2 * c ^ 3 - 9 * b * c * d + 27 * a * d ^ 2 + 27 * b ^ 2 * e - 72 * a * c * e) := by rw [hr3]; ring
      rw [this] at hs
      linear_combination hs
    have hyAB : 3 * e * y = A + B := by rw [hy, hA, hB]; field_simp; ring
    have : (3 * e * y) ^ 3 = A ^ 3 + B ^ 3 + 3 * (A * B) * (A + B) := by rw [hyAB]; ring
    rw [hAA, hAB, ← hyAB] at this
    linear_combination this
  have hp1 : (z - (-(d / (4 * e)) - 1 / 2 * u - 1 / 2 * w1)) * (z - (-(d / (4 * e)) - 1 / 2 * u + 1 / 2 * w1)) =
      (z + d / (4 * e) + u / 2) ^ 2 - w1 ^ 2 / 4 := by ring
  have hp2 : (z - (-(d / (4 * e)) + 1 / 2 * u - 1 / 2 * w2)) * (z - (-(d / (4 * e)) + 1 / 2 * u + 1 / 2 * w2)) =
      (z + d / (4 * e) - u / 2) ^ 2 - w2 ^ 2 / 4 := by ring
  have hU0 : d ^ 2 / (4 * e ^ 2) - 2 * c / (3 * e) + y ≠ 0 := by rw [← hu2]; exact pow_ne_zero _ hu
  have hprod : e * (z - (-(d / (4 * e)) - 1 / 2 * u - 1 / 2 * w1)) * (z - (-(d / (4 * e)) - 1 / 2 * u + 1 / 2 * w1)) *
        (z - (-(d / (4 * e)) + 1 / 2 * u - 1 / 2 * w2)) * (z - (-(d / (4 * e)) + 1 / 2 * u + 1 / 2 * w2)) =
      e * (((z + d / (4 * e) + u / 2) ^ 2 - w1 ^ 2 / 4) * ((z + d / (4 * e) - u / 2) ^ 2 - w2 ^ 2 / 4)) := by
    rw [← hp1, ← hp2]; ring
  rw [hprod, hw1, hw2]
  clear hprod hp1 hp2 hw1 hw2 hs hr3 hy hr hk hk0
  obtain ⟨D, rfl⟩ : ∃ D, d = D * e := ⟨d / e, by field_simp⟩
  obtain ⟨C, rfl⟩ : ∃ D, c = D * e := ⟨c / e, by field_simp⟩
  obtain ⟨B, rfl⟩ : ∃ D, b = D * e := ⟨b / e, by field_simp⟩
  obtain ⟨A, rfl⟩ : ∃ D, a = D * e := ⟨a / e, by field_simp⟩
  have hcub' : 27 * y ^ 3 = 9 * (C ^ 2 - 3 * B * D + 12 * A) * y + (2 * C ^ 3 - 9 * B * C * D + 27 * A * D ^ 2 + 27 * B ^ 2 - 72 * A * C) := by
    have : e ^ 3 * (27 * y ^ 3) = e ^ 3 * (9 * (C ^ 2 - 3 * B * D + 12 * A) * y + (2 * C ^ 3 - 9 * B * C * D + 27 * A * D ^ 2 + 27 * B ^ 2 - 72 * A * C)) := by
      linear_combination hcub
    exact mul_left_cancel₀ (pow_ne_zero _ he) this
  have hg' : g = -D ^ 3 + 4 * C * D - 8 * B := by rw [hg]; field_simp
  have hU : u ^ 2 = D ^ 2 / 4 - 2 * C / 3 + y := by rw [hu2]; field_simp
  have hM : (D * e) ^ 2 / (2 * e ^ 2) - 4 * (C * e) / (3 * e) - y = D ^ 2 / 2 - 4 * C / 3 - y := by field_simp
  have hDe : D * e / (4 * e) = D / 4 := by field_simp
  rw [hM, hDe]
  have hsplit : ((z + D / 4 + u / 2) ^ 2 - (D ^ 2 / 2 - 4 * C / 3 - y - g / (4 * u)) / 4) * ((z + D / 4 - u / 2) ^ 2 - (D ^ 2 / 2 - 4 * C / 3 - y + g / (4 * u)) / 4) =
      ((z + D / 4) ^ 2 + (u ^ 2 - (D ^ 2 / 2 - 4 * C / 3 - y)) / 4) ^ 2 - (u ^ 2 * (z + D / 4) ^ 2 + g * (z + D / 4) / 8 + g ^ 2 / (256 * u ^ 2)) := by
    field_simp
    ring
  rw [hsplit]
  have hres : g ^ 2 = u ^ 2 * (16 * (u ^ 2 - (D ^ 2 / 2 - 4 * C / 3 - y)) ^ 2 - 256 * (A - B * D / 4 + C * D ^ 2 / 16 - 3 * D ^ 4 / 256)) := by
    rw [hU, hg']
    linear_combination (-64 / 27 : ℂ) * hcub'
  have hdiv : g ^ 2 / (256 * u ^ 2) = (16 * (u ^ 2 - (D ^ 2 / 2 - 4 * C / 3 - y)) ^ 2 - 256 * (A - B * D / 4 + C * D ^ 2 / 16 - 3 * D ^ 4 / 256)) / 256 := by
    rw [hres]; field_simp
  rw [hdiv, hU, hg']
  ring

end Expreduce
