import Verif.Model.Compare
import Verif.Spec.SameQ
import Verif.Proofs.Round

/-! Helper lemmas for `SameQ`. -/

namespace Expreduce
open Ex

theorem two_zpow_pos (k : Int) : (0 : Rat) < (2 : Rat) ^ k := zpow_pos (by norm_num) _

theorem c53 {m : Int} (h : m < 2 ^ 53) : (m : Rat) < (2 : Rat) ^ (53 : Int) := by
  rw [show (2 : Rat) ^ (53 : Int) = ((2 ^ 53 : Int) : Rat) by norm_num]; exact Int.cast_lt.2 h

theorem c53' {m : Int} (h : (m : Rat) < (2 : Rat) ^ (53 : Int)) : m < 2 ^ 53 := by
  rw [show (2 : Rat) ^ (53 : Int) = ((2 ^ 53 : Int) : Rat) by norm_num] at h; exact Int.cast_lt.1 h

theorem c52 {m : Int} (h : 2 ^ 52 ≤ m) : (2 : Rat) ^ (52 : Int) ≤ (m : Rat) := by
  rw [show (2 : Rat) ^ (52 : Int) = ((2 ^ 52 : Int) : Rat) by norm_num]; exact Int.cast_le.2 h

theorem c52' {m : Int} (h : (2 : Rat) ^ (52 : Int) ≤ (m : Rat)) : 2 ^ 52 ≤ m := by
  rw [show (2 : Rat) ^ (52 : Int) = ((2 ^ 52 : Int) : Rat) by norm_num] at h; exact Int.cast_le.1 h

theorem zpow_sub_nat (a b : Nat) : (2 : Rat) ^ ((a : Int) - (b : Int)) = (2 : Rat) ^ a / (2 : Rat) ^ b := by
  rw [zpow_sub₀ (by norm_num)]; simp

theorem ilog2_bounds (q : Rat) (h : q ≠ 0) : (2 : Rat) ^ (ilog2 q) ≤ |q| ∧ |q| < (2 : Rat) ^ (ilog2 q + 1) := by
  have hn : q.num.natAbs ≠ 0 := by simpa using h
  have hd : q.den ≠ 0 := q.den_nz
  have hd0 : (0 : Rat) < q.den := by exact_mod_cast Nat.pos_of_ne_zero hd
  have hq : |q| = (q.num.natAbs : Rat) / (q.den : Rat) := by
    conv_lhs => rw [← Rat.num_div_den q]
    rw [abs_div, abs_of_pos hd0]
    congr 1
    rw [← Int.cast_abs, Int.abs_eq_natAbs]; simp
  have n1 : (2 : Rat) ^ q.num.natAbs.log2 ≤ (q.num.natAbs : Rat) := by exact_mod_cast Nat.log2_self_le hn
  have n2 : (q.num.natAbs : Rat) < (2 : Rat) ^ (q.num.natAbs.log2 + 1) := by exact_mod_cast Nat.lt_log2_self
  have d1 : (2 : Rat) ^ q.den.log2 ≤ (q.den : Rat) := by exact_mod_cast Nat.log2_self_le hd
  have d2 : (q.den : Rat) < (2 : Rat) ^ (q.den.log2 + 1) := by exact_mod_cast Nat.lt_log2_self
  have e : ilog2 q = if |q| < (2 : Rat) ^ ((q.num.natAbs.log2 : Int) - q.den.log2) then (q.num.natAbs.log2 : Int) - q.den.log2 - 1
      else (q.num.natAbs.log2 : Int) - q.den.log2 := rfl
  rw [e]
  generalize q.num.natAbs.log2 = a at *
  generalize q.den.log2 = b at *
  generalize (q.num.natAbs : Rat) = n at *
  generalize (q.den : Rat) = d at *
  have pb : (0 : Rat) < 2 ^ b := by positivity
  have pa : (0 : Rat) < 2 ^ a := by positivity
  split
  · rename_i hlt
    refine ⟨?_, by rw [sub_add_cancel]; exact hlt⟩
    rw [zpow_sub₀ (by norm_num), zpow_sub_nat, hq, zpow_one, div_div, div_le_div_iff₀ (by positivity) hd0]
    rw [pow_succ] at d2
    have : (2 : Rat) ^ a * d ≤ 2 ^ a * (2 ^ b * 2) := mul_le_mul_of_nonneg_left d2.le pa.le
    have : (2 : Rat) ^ a * (2 ^ b * 2) ≤ n * (2 ^ b * 2) := mul_le_mul_of_nonneg_right n1 (by positivity)
    linarith
  · rename_i hlt
    refine ⟨not_lt.1 hlt, ?_⟩
    rw [zpow_add₀ (by norm_num), zpow_sub_nat, hq, zpow_one, div_mul_eq_mul_div, div_lt_div_iff₀ hd0 (by positivity)]
    rw [pow_succ] at n2
    have : n * 2 ^ b < (2 ^ a * 2) * 2 ^ b := mul_lt_mul_of_pos_right n2 pb
    have : (2 ^ a * 2) * (2 : Rat) ^ b ≤ (2 ^ a * 2) * d := mul_le_mul_of_nonneg_left d1 (by positivity)
    linarith

theorem ilog2_unique (q : Rat) (hq : q ≠ 0) (k : Int) (h1 : (2 : Rat) ^ k ≤ |q|) (h2 : |q| < (2 : Rat) ^ (k + 1)) : ilog2 q = k := by
  obtain ⟨a, b⟩ := ilog2_bounds q hq
  have x1 : (2 : Rat) ^ k < (2 : Rat) ^ (ilog2 q + 1) := lt_of_le_of_lt h1 b
  have x2 : (2 : Rat) ^ ilog2 q < (2 : Rat) ^ (k + 1) := lt_of_le_of_lt a h2
  rw [zpow_lt_zpow_iff_right₀ (by norm_num)] at x1 x2
  omega

/-- Exponent of the last place of a nonzero double. -/
def dq (x : Rat) : Int := max (ilog2 x - 52) (-1074)

theorem double_norm {x : Rat} (h : IsDouble x) (hx : 0 < x) : ∃ M : Int, x = M * (2 : Rat) ^ (dq x) ∧ 0 < M ∧ M < 2 ^ 53 ∧
    (dq x = -1074 ∨ 2 ^ 52 ≤ M) ∧ f64mag x = M + (dq x + 1074) * 2 ^ 52 ∧ dq x ≤ 971 ∧ -1074 ≤ dq x := by
  obtain ⟨m, q, m0, m1, q0, q1, hxd⟩ := h
  have hxne : x ≠ 0 := ne_of_gt hx
  obtain ⟨l1, l2⟩ := ilog2_bounds x hxne
  rw [abs_of_pos hx] at l1 l2
  have hmpos : 0 < m := by
    by_contra hc
    have : m = 0 := by omega
    rw [hxd, this] at hx; simp at hx
  have hlt : ilog2 x < 53 + q := by
    have : x < (2 : Rat) ^ (53 + q) := by
      rw [zpow_add₀ (by norm_num), hxd]
      exact mul_lt_mul_of_pos_right (c53 m1) (two_zpow_pos q)
    have := lt_of_le_of_lt l1 this
    rwa [zpow_lt_zpow_iff_right₀ (by norm_num)] at this
  have hdq : dq x ≤ q := by unfold dq; omega
  obtain ⟨k, hk⟩ := Int.eq_ofNat_of_zero_le (show 0 ≤ q - dq x by omega)
  have hxe : x = ((m * 2 ^ k : Int) : Rat) * (2 : Rat) ^ dq x := by
    have : q = (k : Int) + dq x := by omega
    conv_lhs => rw [hxd, this, zpow_add₀ (by norm_num), zpow_natCast, ← mul_assoc]
    push_cast; ring
  generalize m * 2 ^ k = M at hxe
  have hMpos : 0 < M := by
    by_contra hc
    have : (M : Rat) ≤ 0 := by exact_mod_cast (not_lt.1 hc)
    have := mul_nonpos_of_nonpos_of_nonneg this (two_zpow_pos (dq x)).le
    linarith
  have hup : M < 2 ^ 53 := by
    apply c53'
    have h1 : x < (2 : Rat) ^ (53 + dq x) := by
      refine lt_of_lt_of_le l2 ?_
      apply zpow_le_zpow_right₀ (by norm_num)
      unfold dq; omega
    rw [zpow_add₀ (by norm_num)] at h1
    have h1 : (M : Rat) * (2 : Rat) ^ dq x < (2 : Rat) ^ (53 : Int) * (2 : Rat) ^ dq x := hxe ▸ h1
    exact lt_of_mul_lt_mul_right h1 (two_zpow_pos _).le
  refine ⟨M, hxe, hMpos, hup, ?_, ?_, ?_, ?_⟩
  · by_cases hc : dq x = -1074
    · exact Or.inl hc
    · right
      have hdq' : dq x = ilog2 x - 52 := by unfold dq at *; omega
      have : (2 : Rat) ^ (52 + dq x) ≤ x := by
        have : 52 + dq x = ilog2 x := by omega
        rw [this]; exact l1
      rw [zpow_add₀ (by norm_num)] at this
      have this : (2 : Rat) ^ (52 : Int) * (2 : Rat) ^ dq x ≤ (M : Rat) * (2 : Rat) ^ dq x := le_of_le_of_eq this hxe
      exact c52' (le_of_mul_le_mul_right this (two_zpow_pos _))
  · unfold f64mag
    rw [if_neg hxne]
    show rne (x / (2 : Rat) ^ dq x) + (dq x + 1074) * 2 ^ 52 = _
    congr 1
    have : x / (2 : Rat) ^ dq x = (M : Rat) := by
      rw [div_eq_iff (two_zpow_pos _).ne']; exact hxe
    rw [this, rne_int]
  · omega
  · unfold dq; omega

theorem f64mag_zero : f64mag 0 = 0 := by simp [f64mag]

theorem f64mag_bounds {x : Rat} (h : IsDouble x) (hx : 0 ≤ x) : 0 ≤ f64mag x ∧ f64mag x < 2047 * 2 ^ 52 := by
  rcases eq_or_lt_of_le hx with rfl | hx
  · rw [f64mag_zero]; norm_num
  · obtain ⟨M, _, h2, h3, h4, h5, h6, h7⟩ := double_norm h hx
    rw [h5]; omega

theorem f64mag_pos {x : Rat} (h : IsDouble x) (hx : 0 < x) : 0 < f64mag x := by
  obtain ⟨M, _, h2, h3, h4, h5, h6, h7⟩ := double_norm h hx
  rw [h5]; omega

theorem f64mag_lt {x y : Rat} (hx : IsDouble x) (hy : IsDouble y) (h0 : 0 ≤ x) (h : x < y) : f64mag x < f64mag y := by
  rcases eq_or_lt_of_le h0 with rfl | hx0
  · rw [f64mag_zero]; exact f64mag_pos hy h
  · obtain ⟨M, e1, a2, a3, a4, a5, a6, a7⟩ := double_norm hx hx0
    obtain ⟨N, e2, b2, b3, b4, b5, b6, b7⟩ := double_norm hy (hx0.trans h)
    rw [a5, b5]
    have hmono : dq x ≤ dq y := by
      have : ilog2 x ≤ ilog2 y := by
        have l1 := (ilog2_bounds x hx0.ne').1
        have l2 := (ilog2_bounds y (hx0.trans h).ne').2
        rw [abs_of_pos hx0] at l1
        rw [abs_of_pos (hx0.trans h)] at l2
        have := (lt_of_le_of_lt l1 h).trans l2
        rw [zpow_lt_zpow_iff_right₀ (by norm_num)] at this
        omega
      unfold dq; omega
    rcases eq_or_lt_of_le hmono with heq | hlt
    · have : (M : Rat) < N := by
        rw [e1, e2, heq] at h
        exact lt_of_mul_lt_mul_right h (two_zpow_pos _).le
      have : M < N := by exact_mod_cast this
      rw [heq]; omega
    · rcases b4 with b4 | b4
      · omega
      · omega

theorem f64mag_surj (k : Int) (h0 : 0 < k) (h1 : k < 2047 * 2 ^ 52) : ∃ z, IsDouble z ∧ 0 < z ∧ f64mag z = k := by
  by_cases hk : k < 2 ^ 52
  · refine ⟨k * (2 : Rat) ^ (-1074 : Int), ⟨k, -1074, by omega, by omega, by omega, by omega, rfl⟩, ?_, ?_⟩
    · have : (0 : Rat) < k := by exact_mod_cast h0
      exact mul_pos this (two_zpow_pos _)
    · have hz : (0 : Rat) < k * (2 : Rat) ^ (-1074 : Int) := mul_pos (by exact_mod_cast h0) (two_zpow_pos _)
      have hd : IsDouble (k * (2 : Rat) ^ (-1074 : Int)) := ⟨k, -1074, by omega, by omega, by omega, by omega, rfl⟩
      obtain ⟨M, e1, a2, a3, a4, a5, a6, a7⟩ := double_norm hd hz
      rcases a4 with a4 | a4
      · rw [a5, a4]
        rw [a4] at e1
        have := mul_right_cancel₀ (two_zpow_pos (-1074)).ne' e1
        have : k = M := by exact_mod_cast this
        omega
      · exfalso
        have h2 : (M : Rat) * (2 : Rat) ^ (-1074 : Int) ≤ k * (2 : Rat) ^ (-1074 : Int) := by
          conv_rhs => rw [e1]
          apply mul_le_mul_of_nonneg_left _ (by exact_mod_cast a2.le)
          exact zpow_le_zpow_right₀ (by norm_num) a7
        have := le_of_mul_le_mul_right h2 (two_zpow_pos _)
        have : M ≤ k := by exact_mod_cast this
        omega
  · have e : ∃ q M : Int, -1074 ≤ q ∧ q ≤ 971 ∧ 2 ^ 52 ≤ M ∧ M < 2 ^ 53 ∧ k = M + (q + 1074) * 2 ^ 52 :=
      ⟨k / 2 ^ 52 - 1075, k % 2 ^ 52 + 2 ^ 52, by omega, by omega, by omega, by omega, by omega⟩
    obtain ⟨q, M, q0, q1, m0, m1, hk⟩ := e
    have hM : (0 : Rat) < M := by exact_mod_cast (by omega : (0 : Int) < M)
    have hz : (0 : Rat) < M * (2 : Rat) ^ q := mul_pos hM (two_zpow_pos _)
    have hd : IsDouble (M * (2 : Rat) ^ q) := ⟨M, q, by omega, by omega, q0, q1, rfl⟩
    refine ⟨_, hd, hz, ?_⟩
    have hl : ilog2 (M * (2 : Rat) ^ q) = 52 + q := by
      apply ilog2_unique _ hz.ne'
      · rw [abs_of_pos hz, zpow_add₀ (by norm_num)]
        exact mul_le_mul_of_nonneg_right (c52 m0) (two_zpow_pos _).le
      · rw [abs_of_pos hz, show 52 + q + 1 = 53 + q by ring, zpow_add₀ (by norm_num)]
        exact mul_lt_mul_of_pos_right (c53 m1) (two_zpow_pos _)
    obtain ⟨N, e1, a2, a3, a4, a5, a6, a7⟩ := double_norm hd hz
    have hdq : dq (M * (2 : Rat) ^ q) = q := by unfold dq; rw [hl]; omega
    rw [hdq] at e1 a5
    have := mul_right_cancel₀ (two_zpow_pos q).ne' e1
    have : M = N := by exact_mod_cast this
    rw [a5]; omega

theorem f64mag_adjacent {x y : Rat} (hx : IsDouble x) (hy : IsDouble y) (h0 : 0 ≤ x) (h : x < y) :
    f64mag y - f64mag x ≤ 1 ↔ ¬ ∃ z, IsDouble z ∧ x < z ∧ z < y := by
  have b1 := f64mag_bounds hx h0
  have b2 := f64mag_bounds hy (h0.trans h.le)
  have hlt := f64mag_lt hx hy h0 h
  constructor
  · rintro hle ⟨z, hz, hz1, hz2⟩
    have := f64mag_lt hx hz h0 hz1
    have := f64mag_lt hz hy (h0.trans hz1.le) hz2
    omega
  · intro hno
    by_contra hc
    obtain ⟨z, hz, hz0, hzk⟩ := f64mag_surj (f64mag x + 1) (by omega) (by omega)
    apply hno
    refine ⟨z, hz, ?_, ?_⟩
    · by_contra hle
      rcases eq_or_lt_of_le (not_lt.1 hle) with he | hl
      · rw [he] at hzk; omega
      · have := f64mag_lt hz hx hz0.le hl; omega
    · by_contra hle
      rcases eq_or_lt_of_le (not_lt.1 hle) with he | hl
      · rw [← he] at hzk; omega
      · have := f64mag_lt hy hz (h0.trans h.le) hl; omega

theorem almostEqual_comm (i j : Int) : almostEqual i j = almostEqual j i := by
  unfold almostEqual
  have : (i == j) = (j == i) := by
    by_cases h : i = j
    · subst h; rfl
    · have h' : ¬ j = i := fun e => h e.symm
      simp [h, h']
  rw [this]
  have key : (-1 ≤ wrap64 (i - j) ∧ wrap64 (i - j) ≤ 1) ↔ (-1 ≤ wrap64 (j - i) ∧ wrap64 (j - i) ≤ 1) := by
    unfold wrap64; omega
  congr 1
  rw [← Bool.decide_and, ← Bool.decide_and]
  exact decide_eq_decide.2 key

theorem hash_inj_le64 {a b : UInt64} (h : le64 a = le64 b) : a = b := by
  have hn : ∀ n m : Nat, n < 2 ^ 64 → m < 2 ^ 64 →
      (∀ i, i < 8 → (n / 256 ^ i) % 256 = (m / 256 ^ i) % 256) → n = m := by
    intro n m hn hm hi
    have h0 := hi 0 (by omega); have h1 := hi 1 (by omega); have h2 := hi 2 (by omega); have h3 := hi 3 (by omega)
    have h4 := hi 4 (by omega); have h5 := hi 5 (by omega); have h6 := hi 6 (by omega); have h7 := hi 7 (by omega)
    norm_num at h0 h1 h2 h3 h4 h5 h6 h7
    omega
  apply UInt64.toNat_inj.1
  apply hn _ _ a.toNat_lt b.toNat_lt
  intro i hi
  have := congrArg (fun l => (l[i]?).map UInt8.toNat) h
  simp only [le64, List.getElem?_map, List.getElem?_range hi, Option.map_some, Option.some.injEq] at this
  simpa using this

theorem le64_length (a : UInt64) : (le64 a).length = 8 := by simp [le64]

/-! ### Encodings -/

theorem leBytes_zero (f : Nat) : leBytes f 0 = [] := by cases f <;> simp [leBytes]

theorem leBytes_succ (f n : Nat) (h : n ≠ 0) : leBytes (f + 1) n = UInt8.ofNat (n % 256) :: leBytes f (n / 256) := by
  rw [leBytes, if_neg h]

theorem div256_lt {n f : Nat} (hn : n < 2 ^ (8 * (f + 1))) : n / 256 < 2 ^ (8 * f) := by
  rw [Nat.div_lt_iff_lt_mul (by norm_num)]
  rw [show 8 * (f + 1) = 8 * f + 8 by ring, pow_add] at hn
  simpa using hn

theorem leBytes_inj : ∀ f g n m, n < 2 ^ (8 * f) → m < 2 ^ (8 * g) → leBytes f n = leBytes g m → n = m := by
  intro f
  induction f with
  | zero =>
    intro g n m hn hm h
    have : n = 0 := by simpa using hn
    subst this
    by_cases hm0 : m = 0
    · exact hm0.symm
    · cases g with
      | zero => simp at hm; omega
      | succ g => rw [leBytes_succ _ _ hm0] at h; simp [leBytes] at h
  | succ f ih =>
    intro g n m hn hm h
    by_cases hn0 : n = 0
    · by_cases hm0 : m = 0
      · omega
      · cases g with
        | zero => simp at hm; omega
        | succ g => rw [leBytes_succ _ _ hm0, hn0, leBytes_zero] at h; simp at h
    · rw [leBytes_succ _ _ hn0] at h
      cases g with
      | zero => simp [leBytes] at h
      | succ g =>
        by_cases hm0 : m = 0
        · rw [hm0, leBytes_zero] at h; simp at h
        · rw [leBytes_succ _ _ hm0] at h
          simp only [List.cons.injEq] at h
          have h1 := ih g _ _ (div256_lt hn) (div256_lt hm) h.2
          have h2 := congrArg UInt8.toNat h.1
          simp at h2
          omega

theorem beBytes_inj {n m : Nat} (h : beBytes n = beBytes m) : n = m := by
  have b : ∀ n : Nat, n < 2 ^ (8 * (n.log2 + 1)) := by
    intro n
    refine lt_of_lt_of_le (Nat.lt_log2_self (n := n)) ?_
    exact Nat.pow_le_pow_right (by norm_num) (by omega)
  exact leBytes_inj _ _ _ _ (b n) (b m) (List.reverse_injective h)

theorem gobInt_inj {n m : Int} (h : gobInt n = gobInt m) : n = m := by
  unfold gobInt at h
  simp only [List.cons.injEq] at h
  have := beBytes_inj h.2
  have h1 := h.1
  split at h1 <;> split at h1
  · omega
  · simp at h1
  · simp at h1
  · omega

theorem bytes_inj' {s t : String} (h : bytes s = bytes t) : s = t := by
  unfold bytes at h
  have h1 := Array.toList_inj.1 h
  have : s.toByteArray = t.toByteArray := by
    cases hs : s.toByteArray; cases ht : t.toByteArray
    simp_all
  exact String.toByteArray_inj.1 this

/-- Fingerprint equality goes down to the parts unless two encodings collide. -/
theorem encParts_length (ps : List Ex) : (encParts ps).length = 8 * ps.length := by
  induction ps with
  | nil => rfl
  | cons p ps ih => rw [encParts, List.length_append, le64_length, ih, List.length_cons]; ring

theorem encParts_inj {ps qs : List Ex} (h : encParts ps = encParts qs) :
    List.Forall₂ (fun p q => hash p = hash q) ps qs := by
  induction ps generalizing qs with
  | nil =>
    cases qs with
    | nil => exact .nil
    | cons q qs => have := congrArg List.length h; rw [encParts_length, encParts_length] at this; simp at this
  | cons p ps ih =>
    cases qs with
    | nil => have := congrArg List.length h; rw [encParts_length, encParts_length] at this; simp at this
    | cons q qs =>
      rw [encParts, encParts] at h
      obtain ⟨h1, h2⟩ := List.append_inj h (by rw [le64_length, le64_length])
      exact .cons (hash_inj_le64 h1) (ih h2)

end Expreduce
