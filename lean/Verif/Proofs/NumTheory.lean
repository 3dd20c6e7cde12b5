import Verif.Model.NumTheory
import Mathlib.Data.Nat.Prime.Basic
import Mathlib.Algebra.BigOperators.Group.List.Basic
import Mathlib.Algebra.Order.Ring.Pow
import Mathlib.Tactic.Linarith
import Mathlib.Tactic.Ring
import Mathlib.Tactic.Zify
import Mathlib.Data.Nat.Factorial.Basic
import Mathlib.Algebra.BigOperators.Group.List.Lemmas
import Mathlib.Data.List.Induction
import Mathlib.Algebra.Order.BigOperators.Group.List
import Mathlib.Data.List.Perm.Basic

namespace Expreduce
open Ex

/-! ### GCD -/

theorem foldl_gcd_dvd (l : List Nat) (g d : Nat) : d ∣ l.foldl Nat.gcd g ↔ d ∣ g ∧ ∀ a ∈ l, d ∣ a := by
  induction l generalizing g with
  | nil => simp
  | cons a as ih => simp [ih, Nat.dvd_gcd_iff, and_assoc]

theorem gcdCollect_dvd (l : List Int) (d : Nat) : (∀ a ∈ gcdCollect l, d ∣ a) ↔ ∀ a ∈ l, (d : Int) ∣ a := by
  induction l with
  | nil => simp [gcdCollect]
  | cons a as ih =>
    unfold gcdCollect
    split
    · rename_i h
      have : (d ∣ a.toNat) ↔ (d : Int) ∣ a := by
        rw [← Int.natCast_dvd_natCast, Int.toNat_of_nonneg (by omega)]
      simp [ih, this]
    · split
      · have : (d ∣ (-a).toNat) ↔ (d : Int) ∣ a := by
          rw [← Int.natCast_dvd_natCast, Int.toNat_of_nonneg (by omega), Int.dvd_neg]
        simp [ih, this]
      · have : a = 0 := by omega
        simp [ih, this]

theorem gcdInts_nonneg (l : List Int) : 0 ≤ gcdInts l := by
  unfold gcdInts; split <;> simp

theorem dvd_gcdInts (l : List Int) (d : Int) : d ∣ gcdInts l ↔ ∀ a ∈ l, d ∣ a := by
  have key : ∀ d : Nat, (d : Int) ∣ gcdInts l ↔ ∀ a ∈ l, (d : Int) ∣ a := by
    intro d
    rw [← gcdCollect_dvd]
    unfold gcdInts
    split
    · rename_i h; simp [h]
    · rename_i g gs h
      rw [h, Int.natCast_dvd_natCast, foldl_gcd_dvd]
      simp
  have := key d.natAbs
  simpa [Int.natAbs_dvd] using this

/-! ### Prime factors -/

theorem nextFactor_spec (n : Nat) (hn : 2 ≤ n) (i : Nat) (hi : 2 ≤ i) (hmin : ∀ j, 2 ≤ j → j < i → ¬ j ∣ n) (f : Nat) (hf : n < f + i) :
    ∃ p : Nat, nextFactor f n i = some (p : Int) ∧ p.Prime ∧ p ∣ n ∧ ∀ j, 2 ≤ j → j < p → ¬ j ∣ n := by
  induction f generalizing i with
  | zero =>
    exfalso
    exact hmin n hn (by omega) (dvd_refl n)
  | succ f ih =>
    unfold nextFactor
    have hdv : ((n : Int) % (i : Int) = 0) ↔ i ∣ n := by
      rw [← Int.dvd_iff_emod_eq_zero, Int.natCast_dvd_natCast]
    by_cases h : i ∣ n
    · rw [if_pos (hdv.2 h)]
      refine ⟨i, rfl, ?_, h, hmin⟩
      rw [Nat.prime_def_minFac]
      refine ⟨hi, ?_⟩
      by_contra hne
      have h1 : i ≠ 1 := by omega
      have h2 := Nat.minFac_prime h1
      have h3 := Nat.minFac_dvd i
      have h4 := Nat.le_of_dvd (by omega) h3
      exact hmin _ h2.two_le (by omega) (h3.trans h)
    · rw [if_neg (fun hc => h (hdv.1 hc))]
      have := ih (i + 1) (by omega) (by
        intro j hj hlt
        by_cases hji : j = i
        · rw [hji]; exact h
        · exact hmin j hj (by omega)) (by omega)
      simpa using this

theorem pfLoop_spec (f n : Nat) (hn : 1 ≤ n) (hf : n < f) :
    ∃ l : List Nat, pfLoop f n = some (l.map (↑)) ∧ (∀ p ∈ l, p.Prime) ∧ l.Pairwise (· ≤ ·) ∧ l.prod = n := by
  induction f generalizing n with
  | zero => omega
  | succ f ih =>
    unfold pfLoop
    by_cases h1 : n = 1
    · subst h1; exact ⟨[], by simp⟩
    · rw [if_neg (by exact_mod_cast h1)]
      obtain ⟨p, hp, hpp, hpd, hmin⟩ := nextFactor_spec n (by omega) 2 (by omega) (by intros; omega) f (by omega)
      simp only [Nat.cast_ofNat] at hp
      rw [hp]
      obtain ⟨q, hq⟩ := hpd
      have hp2 := hpp.two_le
      have hqpos : 0 < q := by
        rcases Nat.eq_zero_or_pos q with h | h
        · rw [h] at hq; simp at hq; omega
        · exact h
      have hdiv : (n : Int) / (p : Int) = (q : Int) := by
        rw [hq]; push_cast; exact Int.mul_ediv_cancel_left _ (by omega)
      have hlt : q < n := by rw [hq]; nlinarith
      obtain ⟨l, hl, hl1, hl2, hl3⟩ := ih q (by omega) (by omega)
      refine ⟨p :: l, ?_, ?_, ?_, ?_⟩
      · simp only [hdiv, hl, List.map]
      · intro r hr
        rcases List.mem_cons.1 hr with rfl | hr
        · exact hpp
        · exact hl1 r hr
      · rw [List.pairwise_cons]
        refine ⟨?_, hl2⟩
        intro r hr
        by_contra hc
        have hrq : r ∣ q := hl3 ▸ List.dvd_prod hr
        exact hmin r (hl1 r hr).two_le (by omega) (hrq.trans ⟨p, by rw [hq]; ring⟩)
      · simp [hl3, hq]

theorem nextFactor_zero (f : Nat) : ∀ p, nextFactor f 0 2 = some p → p = 2 := by
  intro p hp
  cases f with
  | zero => simp [nextFactor] at hp
  | succ f => simp [nextFactor] at hp; exact hp.symm

theorem pfLoop_zero (f : Nat) : pfLoop f 0 = none := by
  induction f with
  | zero => rfl
  | succ f ih =>
    unfold pfLoop
    rw [if_neg (by decide)]
    cases h : nextFactor f 0 2 with
    | none => rfl
    | some p =>
      have := nextFactor_zero f p h
      subst this
      simp [ih]

theorem nextFactor_dvd (f : Nat) (n i : Int) (p : Int) (h : nextFactor f n i = some p) : p ∣ n ∧ i ≤ p := by
  induction f generalizing i with
  | zero => simp [nextFactor] at h
  | succ f ih =>
    unfold nextFactor at h
    split at h
    · rename_i h0
      cases h
      exact ⟨Int.dvd_of_emod_eq_zero h0, le_refl _⟩
    · have := ih _ h
      exact ⟨this.1, by omega⟩

theorem pfLoop_neg (f : Nat) (n : Int) (hn : n < 0) : pfLoop f n = none := by
  induction f generalizing n with
  | zero => rfl
  | succ f ih =>
    unfold pfLoop
    rw [if_neg (by omega)]
    cases h : nextFactor f n 2 with
    | none => rfl
    | some p =>
      obtain ⟨h1, h2⟩ := nextFactor_dvd f n 2 p h
      have : n / p < 0 := by
        obtain ⟨q, rfl⟩ := h1
        rw [Int.mul_ediv_cancel_left _ (by omega)]
        by_contra hc
        have : 0 ≤ p * q := Int.mul_nonneg (by omega) (by omega)
        omega
      simp only [ih _ this]

/-! ### Tallies -/

/-- Number a tally stands for. -/
def tallyProd (t : List (Int × Nat)) : Int := (t.map (fun x => x.1 ^ x.2)).prod

theorem tallyAdd_prod (t : List (Int × Nat)) (p : Int) : tallyProd (tallyAdd t p) = tallyProd t * p := by
  induction t with
  | nil => simp [tallyAdd, tallyProd]
  | cons a as ih =>
    obtain ⟨q, k⟩ := a
    unfold tallyAdd
    split
    · rename_i h; subst h; simp only [tallyProd, List.map, List.prod_cons, pow_succ]; ring
    · simp only [tallyProd, List.map, List.prod_cons] at ih ⊢; rw [ih]; ring

theorem tallyAdd_keys (t : List (Int × Nat)) (p : Int) :
    (tallyAdd t p).map Prod.fst = if p ∈ t.map Prod.fst then t.map Prod.fst else t.map Prod.fst ++ [p] := by
  induction t with
  | nil => simp [tallyAdd]
  | cons a as ih =>
    obtain ⟨q, k⟩ := a
    unfold tallyAdd
    by_cases h : q = p
    · subst h; simp
    · rw [if_neg h]
      simp only [List.map_cons, ih, List.mem_cons]
      by_cases h' : p ∈ as.map Prod.fst
      · simp [h']
      · rw [if_neg h', if_neg]
        · simp
        · rintro (h2 | h2)
          · exact h h2.symm
          · exact h' h2

theorem tallyAdd_pos (t : List (Int × Nat)) (p : Int) (h : ∀ x ∈ t, 0 < x.2) : ∀ x ∈ tallyAdd t p, 0 < x.2 := by
  induction t with
  | nil => simp [tallyAdd]
  | cons a as ih =>
    obtain ⟨q, k⟩ := a
    unfold tallyAdd
    split
    · intro x hx
      rcases List.mem_cons.1 hx with rfl | hx
      · simp
      · exact h x (by simp [hx])
    · intro x hx
      rcases List.mem_cons.1 hx with rfl | hx
      · exact h _ (by simp)
      · exact ih (fun x hx => h x (by simp [hx])) x hx

/-- Multiplicity recorded for a factor. -/
def tallyCount (t : List (Int × Nat)) (p : Int) : Nat := ((t.filter (fun x => decide (x.1 = p))).map Prod.snd).sum

theorem tallyAdd_count (t : List (Int × Nat)) (p q : Int) :
    tallyCount (tallyAdd t p) q = tallyCount t q + if p = q then 1 else 0 := by
  induction t with
  | nil => by_cases h : p = q <;> simp [tallyAdd, tallyCount, h]
  | cons a as ih =>
    obtain ⟨r, k⟩ := a
    unfold tallyAdd
    split
    · rename_i h; subst h
      by_cases h : r = q <;> simp [tallyCount, h]; omega
    · rename_i hr
      by_cases h : r = q
      · simp only [tallyCount, List.filter_cons, h, decide_true, if_true, List.map, List.sum_cons] at ih ⊢; rw [ih]; omega
      · simp only [tallyCount, List.filter_cons, h, decide_false] at ih ⊢; simpa using ih

/-- Folding a list of factors into tallies. -/
theorem tally_spec (l : List Int) :
    tallyProd (l.foldl tallyAdd []) = l.prod ∧ ((l.foldl tallyAdd []).map Prod.fst).Nodup ∧
    (∀ p, p ∈ (l.foldl tallyAdd []).map Prod.fst ↔ p ∈ l) ∧ (∀ x ∈ l.foldl tallyAdd [], 0 < x.2) ∧
    (l.Pairwise (· ≤ ·) → ((l.foldl tallyAdd []).map Prod.fst).Pairwise (· < ·)) ∧
    (∀ p, tallyCount (l.foldl tallyAdd []) p = l.count p) := by
  induction l using List.reverseRecOn with
  | nil => simp [tallyProd, tallyCount]
  | append_singleton l a ih =>
    obtain ⟨h1, h2, h3, h4, h5, h6⟩ := ih
    simp only [List.foldl_append, List.foldl_cons, List.foldl_nil]
    refine ⟨by rw [tallyAdd_prod, h1]; simp, ?_, ?_, tallyAdd_pos _ _ h4, ?_, ?_⟩
    · rw [tallyAdd_keys]
      split
      · exact h2
      · rename_i h
        exact List.nodup_append.2 ⟨h2, by simp, by intro x hx y hy; simp at hy; subst hy; rintro rfl; exact h hx⟩
    · intro p
      rw [tallyAdd_keys]
      split
      · rename_i h
        rw [h3] at h ⊢
        simp
        rintro rfl
        exact h
      · simp [← h3]
    · intro hs
      rw [List.pairwise_append] at hs
      rw [tallyAdd_keys]
      split
      · exact h5 hs.1
      · rename_i h
        rw [List.pairwise_append]
        refine ⟨h5 hs.1, by simp, ?_⟩
        intro x hx y hy
        simp at hy; subst hy
        have := hs.2.2 x ((h3 x).1 hx) y (by simp)
        rcases lt_or_eq_of_le this with h' | h'
        · exact h'
        · exact absurd (h' ▸ hx) h
    · intro p
      rw [tallyAdd_count, h6, List.count_append]
      by_cases h : a = p <;> simp [h]

/-! ### n-th root -/

theorem newton_ge (a b n : Nat) (hb : b ≠ 0) : a ≤ ((a ^ (n + 1) / b ^ n) + n * b) / (n + 1) := by
  rw [Nat.le_div_iff_mul_le (by positivity), Nat.mul_comm,
    ← Nat.add_mul_div_right _ _ (by positivity),
    Nat.le_div_iff_mul_le (by positivity)]
  zify
  have h := pow_add_mul_le_add_pow_of_sq_nonneg (a := (b : ℤ)) (b := (a : ℤ) - b)
    (ha := by positivity) (Hsq := by positivity) (Hsq' := by positivity) (H := by omega)
    (n := n + 1)
  rw [← sub_nonneg] at h ⊢
  convert! h using 1
  rw [pow_succ]; push_cast; ring1

/-- The integer n-th root loop: started at or above the root it ends with the floor of the root. -/
theorem nthRootLoop_spec (x n r : Nat) (hn : 1 ≤ n) (hr : r ^ n ≤ x) (hr' : x < (r + 1) ^ n) (hr1 : 1 ≤ r) (f z : Nat) (hz : r ≤ z) (hf : z - r < f) :
    nthRootLoop f x n z = some (if r ^ n = x then some r else none) := by
  induction f generalizing z with
  | zero => omega
  | succ f ih =>
    unfold nthRootLoop
    have hz0 : z ≠ 0 := by omega
    rw [if_neg hz0]
    obtain ⟨m, rfl⟩ : ∃ m, n = m + 1 := ⟨n - 1, by omega⟩
    simp only [Nat.add_sub_cancel]
    have hlow : r ≤ (x / z ^ m + z * m) / (m + 1) := by
      refine le_trans (newton_ge r z m hz0) ?_
      apply Nat.div_le_div_right
      have := Nat.div_le_div_right (c := z ^ m) hr
      rw [Nat.mul_comm z m]; omega
    by_cases hge : (x / z ^ m + z * m) / (m + 1) ≥ z
    · rw [if_pos hge]
      -- z is the root
      have h1 : z ≤ x / z ^ m := by
        have := (Nat.le_div_iff_mul_le (by omega : 0 < m + 1)).1 hge
        have e : z * (m + 1) = z * m + z := by ring
        omega
      have h2 : z ^ (m + 1) ≤ x := by
        have := (Nat.le_div_iff_mul_le (by positivity : 0 < z ^ m)).1 h1
        rw [pow_succ, Nat.mul_comm]; exact this
      have : z < r + 1 := by
        by_contra hc
        have := Nat.pow_le_pow_left (Nat.not_lt.1 hc) (m + 1)
        omega
      have : z = r := by omega
      rw [this]
    · rw [if_neg hge]
      exact ih _ hlow (by omega)

theorem exists_root (x n : Nat) (hn : 1 ≤ n) : ∃ r, r ^ n ≤ x ∧ x < (r + 1) ^ n := by
  have hex : ∃ s, x < s ^ n := ⟨x + 1, by
    calc x < x + 1 := by omega
      _ = (x + 1) ^ 1 := by simp
      _ ≤ (x + 1) ^ n := Nat.pow_le_pow_right (by omega) hn⟩
  classical
  have hs := Nat.find_spec hex
  have h0 : Nat.find hex ≠ 0 := by
    intro h; rw [h] at hs; rw [zero_pow (by omega)] at hs; omega
  refine ⟨Nat.find hex - 1, ?_, ?_⟩
  · by_contra hc
    exact Nat.find_min hex (m := Nat.find hex - 1) (by omega) (by omega)
  · have : Nat.find hex - 1 + 1 = Nat.find hex := by omega
    rw [this]; exact hs

theorem lt_start (x : Nat) (hx : x ≠ 0) : x < (2 ^ (bitLen x / 2 + 1)) ^ 2 := by
  rw [← pow_mul]
  have h1 : x < 2 ^ (bitLen x) := by
    unfold bitLen; rw [if_neg hx]; exact Nat.lt_log2_self
  exact lt_of_lt_of_le h1 (Nat.pow_le_pow_right (by omega) (by omega))

theorem nthRoot_spec (x n : Nat) (hn : 2 ≤ n) : ∃ F, ∀ f ≥ F, ∃ r, nthRoot f x n = some r ∧
    ∀ k, r = some k ↔ k ^ n = x := by
  by_cases hx : x = 0
  · refine ⟨0, fun f _ => ⟨some 0, by simp [nthRoot, hx], ?_⟩⟩
    intro k
    rw [hx, Nat.pow_eq_zero]
    constructor
    · rintro h; cases h; exact ⟨rfl, by omega⟩
    · rintro ⟨h, _⟩; rw [h]
  obtain ⟨r, h1, h2⟩ := exists_root x n (by omega)
  have hr1 : 1 ≤ r := by
    by_contra hc
    have : r = 0 := by omega
    rw [this] at h2; simp at h2; omega
  have hstart : r ≤ 2 ^ (bitLen x / 2 + 1) := by
    by_contra hc
    have e1 := lt_start x hx
    have e2 : (2 ^ (bitLen x / 2 + 1)) ^ 2 ≤ r ^ 2 := Nat.pow_le_pow_left (by omega) 2
    have e3 : r ^ 2 ≤ r ^ n := Nat.pow_le_pow_right (by omega) hn
    omega
  refine ⟨2 ^ (bitLen x / 2 + 1) + 1, fun f hf => ⟨if r ^ n = x then some r else none, ?_, ?_⟩⟩
  · unfold nthRoot; rw [if_neg hx]
    exact nthRootLoop_spec x n r (by omega) h1 h2 hr1 f _ hstart (by omega)
  · intro k
    constructor
    · intro h
      split at h
      · cases h; assumption
      · simp at h
    · intro h
      have hk1 : r ≤ k := by
        by_contra hc
        have := Nat.pow_lt_pow_left (show k < r by omega) (show n ≠ 0 by omega)
        omega
      have hk2 : k ≤ r := by
        by_contra hc
        have := Nat.pow_le_pow_left (show r + 1 ≤ k by omega) n
        omega
      have : k = r := by omega
      subst this
      rw [if_pos h]

/-! ### Factorial -/

theorem factorialCell_spec (n : Nat) : factorialCell n = ((n.factorial : Int), 0) := by
  induction n with
  | zero => rfl
  | succ n ih => simp [factorialCell, ih, Nat.factorial]

/-! ### Integer partitions -/

theorem genPartitions_mem (k : Int) (f n s : Nat) (pre q : List Nat) (hn : 1 ≤ n) (hf : n ≤ f) :
    q ∈ genPartitions k f n s pre ↔
      ∃ t, q = pre ++ t ∧ t.sum = n ∧ (∀ a ∈ t, 0 < a) ∧ t.Pairwise (· ≥ ·) ∧ (∀ a ∈ t, a ≤ s) ∧ (q.length : Int) ≤ k := by
  induction f generalizing n s pre with
  | zero => omega
  | succ f ih =>
    unfold genPartitions
    by_cases hk : (pre.length : Int) + 1 > k
    · rw [if_pos hk]
      constructor
      · intro h; simp at h
      · rintro ⟨t, rfl, hs, _, _, _, hl⟩
        exfalso
        cases t with
        | nil => simp at hs; omega
        | cons a as => simp at hl; omega
    · rw [if_neg hk]
      simp only [List.mem_flatMap, List.mem_map, List.mem_reverse, List.mem_range]
      constructor
      · rintro ⟨i, ⟨j, hj, rfl⟩, h⟩
        by_cases hi : j + 1 = n
        · rw [if_pos hi] at h
          simp at h
          refine ⟨[j + 1], h, by simp [hi], by simp, by simp, by simp; omega, ?_⟩
          rw [h]; simp; omega
        · rw [if_neg hi] at h
          by_cases hlt : j + 1 < n
          · obtain ⟨t, rfl, h1, h2, h3, h4, h5⟩ := (ih (n - (j + 1)) _ _ (by omega) (by omega)).1 h
            refine ⟨(j + 1) :: t, by simp, by simp [h1]; omega, ?_, ?_, ?_, by simpa using h5⟩
            · intro a ha
              rcases List.mem_cons.1 ha with rfl | ha
              · omega
              · exact h2 a ha
            · rw [List.pairwise_cons]
              exact ⟨fun a ha => by have := h4 a ha; simp at this; omega, h3⟩
            · intro a ha
              rcases List.mem_cons.1 ha with rfl | ha
              · omega
              · have := h4 a ha; simp at this; omega
          · -- n - (j+1) = 0: no further values
            exfalso
            have e : n - (j + 1) = 0 := by omega
            rw [e] at h
            simp only [Nat.min_zero] at h
            cases f with
            | zero => simp [genPartitions] at h
            | succ f => unfold genPartitions at h; split at h <;> simp at h
      · rintro ⟨t, rfl, h1, h2, h3, h4, h5⟩
        cases t with
        | nil => simp at h1; omega
        | cons a as =>
          have ha0 := h2 a (by simp)
          refine ⟨a, ⟨a - 1, by have := h4 a (by simp); omega, by omega⟩, ?_⟩
          simp only [List.sum_cons] at h1
          by_cases hi : a = n
          · rw [if_pos hi]
            have : as = [] := by
              cases as with
              | nil => rfl
              | cons b bs => have := h2 b (by simp); simp at h1; omega
            simp [this]
          · rw [if_neg hi]
            have has : 1 ≤ n - a := by omega
            rw [ih (n - a) _ _ has (by omega)]
            refine ⟨as, by simp, by omega, fun b hb => h2 b (by simp [hb]), (List.pairwise_cons.1 h3).2, ?_, h5⟩
            intro b hb
            have e1 := (List.pairwise_cons.1 h3).1 b hb
            have e2 : b ≤ as.sum := by
              obtain ⟨u, v, rfl⟩ := List.append_of_mem hb
              simp; omega
            omega

theorem genPartitions_prefix (k : Int) (f n s : Nat) (pre q : List Nat) (h : q ∈ genPartitions k f n s pre) : pre <+: q := by
  induction f generalizing n s pre with
  | zero => simp [genPartitions] at h
  | succ f ih =>
    unfold genPartitions at h
    split at h
    · simp at h
    · simp only [List.mem_flatMap, List.mem_map, List.mem_reverse, List.mem_range] at h
      obtain ⟨i, _, h⟩ := h
      split at h
      · simp at h; rw [h]; exact List.prefix_append _ _
      · exact (List.prefix_append _ _).trans (ih _ _ _ h)

theorem genPartitions_lex (k : Int) (f n s : Nat) (pre : List Nat) :
    (genPartitions k f n s pre).Pairwise (fun a b => List.Lex (· > ·) a b) := by
  induction f generalizing n s pre with
  | zero => simp [genPartitions]
  | succ f ih =>
    unfold genPartitions
    split
    · simp
    · rw [List.pairwise_flatMap]
      constructor
      · intro i _
        split
        · simp
        · exact ih _ _ _
      · have hd : ((List.range s).reverse.map (· + 1)).Pairwise (· > ·) := by
          rw [List.pairwise_map, List.pairwise_reverse]
          exact (List.pairwise_lt_range (n := s)).imp (by intro a b h; show b + 1 > a + 1; omega)
        refine hd.imp ?_
        intro i j hij q hq r hr
        have pq : pre ++ [i] <+: q := by
          split at hq
          · simp at hq; rw [hq]
          · exact genPartitions_prefix _ _ _ _ _ _ hq
        have pr : pre ++ [j] <+: r := by
          split at hr
          · simp at hr; rw [hr]
          · exact genPartitions_prefix _ _ _ _ _ _ hr
        obtain ⟨q', rfl⟩ := pq
        obtain ⟨r', rfl⟩ := pr
        clear hq hr ih
        rename_i hk
        clear hk
        induction pre with
        | nil => exact List.Lex.rel hij
        | cons a as ih2 =>
          simp only [List.cons_append]
          exact List.Lex.cons (ih2)

/-! ### Permutations -/

section
variable {α : Type} [DecidableEq α]

theorem permAppend_fold (first : α) (ps acc : List (List α)) (hacc : acc.Nodup) :
    (ps.foldl (permAppend first) acc).Nodup ∧
    ∀ q, q ∈ ps.foldl (permAppend first) acc ↔ q ∈ acc ∨ ∃ p ∈ ps, q = first :: p := by
  induction ps generalizing acc with
  | nil => simp [hacc]
  | cons p ps ih =>
    have hn : (permAppend first acc p).Nodup := by
      unfold permAppend; split
      · exact hacc
      · rename_i h
        exact List.nodup_append.2 ⟨hacc, by simp, by intro x hx y hy; simp at hy; subst hy; rintro rfl; exact h hx⟩
    obtain ⟨h1, h2⟩ := ih _ hn
    refine ⟨h1, ?_⟩
    intro q
    rw [List.foldl_cons, h2]
    have : q ∈ permAppend first acc p ↔ q ∈ acc ∨ q = first :: p := by
      unfold permAppend; split
      · rename_i h; constructor
        · exact Or.inl
        · rintro (h' | rfl)
          · exact h'
          · exact h
      · simp
    rw [this]; simp; tauto

theorem genPermutations_spec (f : Nat) (l : List α) (hl : l.length = f) (hne : l ≠ []) :
    (genPermutations f l).Nodup ∧ ∀ q, q ∈ genPermutations f l ↔ q.Perm l := by
  induction f generalizing l with
  | zero => simp at hl; exact absurd hl hne
  | succ f ih =>
    unfold genPermutations
    by_cases h1 : l.length = 1
    · rw [if_pos h1]
      refine ⟨by simp, ?_⟩
      intro q
      obtain ⟨a, rfl⟩ := List.length_eq_one_iff.1 h1
      simp [List.perm_singleton]
    · rw [if_neg h1]
      have key : ∀ (is : List Nat) (acc : List (List α)), (∀ i ∈ is, i < l.length) → acc.Nodup →
          (is.foldl (permStep l (genPermutations f)) acc).Nodup ∧
          ∀ q, q ∈ is.foldl (permStep l (genPermutations f)) acc ↔ q ∈ acc ∨ ∃ i ∈ is, ∃ a, l[i]? = some a ∧ ∃ p, p.Perm (l.eraseIdx i) ∧ q = a :: p := by
        intro is
        induction is with
        | nil => intro acc _ h; simp [h]
        | cons i is ih2 =>
          intro acc hi hacc
          have hil := hi i (by simp)
          simp only [List.foldl_cons]
          have hst : permStep l (genPermutations f) acc i = (genPermutations f (l.eraseIdx i)).foldl (permAppend l[i]) acc := by
            simp [permStep, List.getElem?_eq_getElem hil]
          rw [hst]
          have hlen : (l.eraseIdx i).length = f := by rw [List.length_eraseIdx_of_lt hil]; omega
          have hne' : l.eraseIdx i ≠ [] := by
            intro h; rw [h] at hlen; simp at hlen; omega
          obtain ⟨g1, g2⟩ := ih _ hlen hne'
          obtain ⟨p1, p2⟩ := permAppend_fold l[i] (genPermutations f (l.eraseIdx i)) acc hacc
          obtain ⟨r1, r2⟩ := ih2 _ (fun j hj => hi j (by simp [hj])) p1
          refine ⟨r1, ?_⟩
          intro q
          rw [r2, p2]
          simp only [List.mem_cons, exists_eq_or_imp, List.getElem?_eq_getElem hil, Option.some.injEq, exists_eq_left', g2]
          rw [or_assoc]
      obtain ⟨k1, k2⟩ := key (List.range l.length) [] (by simp) (by simp)
      refine ⟨k1, ?_⟩
      intro q
      rw [k2]
      constructor
      · rintro (h | ⟨i, hi, a, ha, p, hp, rfl⟩)
        · simp at h
        · have hil : i < l.length := by simpa using hi
          rw [List.getElem?_eq_getElem hil] at ha
          cases ha
          exact (hp.cons _).trans (List.getElem_cons_eraseIdx_perm hil)
      · intro h
        cases q with
        | nil => exact absurd (h.symm.eq_nil) hne
        | cons a p =>
          right
          have ha : a ∈ l := h.mem_iff.1 (by simp)
          obtain ⟨i, hi, rfl⟩ := List.getElem_of_mem ha
          refine ⟨i, by simpa using hi, _, List.getElem?_eq_getElem hi, p, ?_, rfl⟩
          exact (h.trans (List.getElem_cons_eraseIdx_perm hi).symm).cons_inv

end

/-! ### Digits -/

/-- Horner value. -/
theorem fromDigits_cons (d : Nat) (ds : List Nat) (b : Nat) : fromDigits (d :: ds) b = d * b ^ ds.length + fromDigits ds b := by
  unfold fromDigits
  rw [List.length_cons, List.range_succ_eq_map, List.map_cons, List.sum_cons, List.map_map]
  congr 1
  congr 1
  apply List.map_congr_left
  intro i _
  simp only [Function.comp, List.getElem?_cons_succ]
  congr 2; omega

theorem digitsLoop_spec (b : Nat) (hb : 2 ≤ b) (f n : Nat) (acc : List Nat) (hf : n < f) :
    ∃ ds, digitsLoop f b n acc = some (ds ++ acc) ∧ (∀ d ∈ ds, d < b) ∧ fromDigits ds b = n ∧ (∀ d, ds.head? = some d → d ≠ 0) := by
  induction f generalizing n acc with
  | zero => omega
  | succ f ih =>
    unfold digitsLoop
    by_cases hn : n > 0
    · rw [if_pos hn]
      have hq : (n - n % b) / b = n / b := by
        have := Nat.div_add_mod n b
        have e : n - n % b = b * (n / b) := by omega
        rw [e, Nat.mul_div_cancel_left _ (by omega)]
      rw [hq]
      have hlt : n / b < n := Nat.div_lt_self hn (by omega)
      obtain ⟨ds, h1, h2, h3, h4⟩ := ih (n / b) (n % b :: acc) (by omega)
      refine ⟨ds ++ [n % b], by rw [h1]; simp, ?_, ?_, ?_⟩
      · intro d hd
        rcases List.mem_append.1 hd with hd | hd
        · exact h2 d hd
        · simp at hd; rw [hd]; exact Nat.mod_lt _ (by omega)
      · have snoc : ∀ (l : List Nat) (d : Nat), fromDigits (l ++ [d]) b = fromDigits l b * b + d := by
          intro l d
          induction l with
          | nil => simp [fromDigits]
          | cons a as ih =>
            rw [List.cons_append, fromDigits_cons, fromDigits_cons, ih]
            simp [pow_succ]; ring
        rw [snoc, h3]
        have := Nat.div_add_mod n b
        rw [Nat.mul_comm]; omega
      · intro d hd
        cases ds with
        | nil =>
          simp at hd
          have h0 : n / b = 0 := by rw [← h3]; simp [fromDigits]
          have := Nat.div_add_mod n b
          rw [h0] at this; simp at this; omega
        | cons a as => exact h4 d (by simpa using hd)
    · rw [if_neg hn]
      exact ⟨[], rfl, by simp, by simp [fromDigits]; omega, by simp⟩

end Expreduce
