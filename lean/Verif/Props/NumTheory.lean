import Verif.Proofs.CPower

/-!
# C40–C45, C56–C58: number theory and combinatorics

Loops of the Go code that have no evident bound are modelled with a step budget `fuel`; "the loop ends" is
`∃ F, ∀ fuel ≥ F, … = some …`, "the loop never ends" is `∀ fuel, … = none`.
-/

namespace Expreduce
open Ex

/-! ### C40 -/

/-- C40. For `n ≥ 1`, `IntegerPartitions[n, k]` lists exactly the non-increasing lists of positive integers with sum `n` and at most
`k` elements. -/
theorem C40_complete (n k : Int) (hn : 1 ≤ n) (q : List Nat) :
    q ∈ integerPartitions n k ↔
      (q.sum : Int) = n ∧ (∀ a ∈ q, 0 < a) ∧ q.Pairwise (· ≥ ·) ∧ (q.length : Int) ≤ k := by
  unfold integerPartitions
  rw [if_neg (by omega), if_neg (by omega), genPartitions_mem k _ _ _ _ _ (by omega) (le_refl _)]
  constructor
  · rintro ⟨t, rfl, h1, h2, h3, _, h5⟩
    exact ⟨by rw [h1]; omega, h2, h3, h5⟩
  · rintro ⟨h1, h2, h3, h4⟩
    refine ⟨q, rfl, by omega, h2, h3, ?_, h4⟩
    intro a ha
    have : a ≤ q.sum := by
      obtain ⟨u, v, rfl⟩ := List.append_of_mem ha
      simp; omega
    omega

/-- C40. No partition is listed twice; they come in decreasing lexicographic order. -/
theorem C40_nodup (n k : Int) : (integerPartitions n k).Nodup ∧
    (integerPartitions n k).Pairwise (fun a b => List.Lex (· > ·) a b) := by
  have h : (integerPartitions n k).Pairwise (fun a b => List.Lex (· > ·) a b) := by
    unfold integerPartitions
    split
    · simp
    · split
      · simp
      · exact genPartitions_lex _ _ _ _ _
  refine ⟨h.imp ?_, h⟩
  intro a b hab hne
  subst hne
  have irr : ∀ l : List Nat, ¬ List.Lex (· > ·) l l := by
    intro l
    induction l with
    | nil => intro h; cases h
    | cons x xs ih =>
      intro h
      cases h with
      | rel h => exact absurd h (lt_irrefl x)
      | cons h => exact ih h
  exact irr a hab

/-- C40. Without a bound (`k = n`) every partition of `n` is listed. -/
theorem C40_unbounded (n : Int) (hn : 1 ≤ n) (q : List Nat) :
    q ∈ integerPartitions n n ↔ (q.sum : Int) = n ∧ (∀ a ∈ q, 0 < a) ∧ q.Pairwise (· ≥ ·) := by
  rw [C40_complete n n hn]
  constructor
  · rintro ⟨h1, h2, h3, _⟩; exact ⟨h1, h2, h3⟩
  · rintro ⟨h1, h2, h3⟩
    refine ⟨h1, h2, h3, ?_⟩
    have : q.length ≤ q.sum := by
      clear h1 h3
      induction q with
      | nil => simp
      | cons a as ih =>
        have := ih (fun x hx => h2 x (by simp [hx]))
        have := h2 a (by simp)
        simp; omega
    omega

/-- C40 (test). -/
example : integerPartitions 4 2 = [[4], [3, 1], [2, 2]] := by decide

/-! ### C41 -/

/-- C41. For a nonempty list, `Permutations` lists every rearrangement exactly once (repeated elements give no repeats). -/
theorem C41_complete_partial {α : Type} [DecidableEq α] (l : List α) (hl : l ≠ []) :
    (permutations l).Nodup ∧ ∀ q, q ∈ permutations l ↔ q.Perm l := genPermutations_spec _ l rfl hl

/-- C41 is false for the empty list: the empty rearrangement is missing. -/
theorem C41_not_empty : ¬ (∀ (l q : List Ex), q ∈ permutations l ↔ q.Perm l) := by
  intro h
  have := (h [] []).2 (List.Perm.refl _)
  simp [permutations, genPermutations] at this

/-- C41 (test): a repeated element. -/
example : permutations [1, 1, 2] = [[1, 1, 2], [1, 2, 1], [2, 1, 1]] := by decide

/-! ### C42 -/

/-- C42. `n!` is the factorial for `n ≥ 0`, `ComplexInfinity` for negative integers. -/
theorem C42_value_partial (n : Int) : (factorialEval n).1 = if n < 0 then S "ComplexInfinity" else .int (n.toNat.factorial) := by
  unfold factorialEval
  split
  · rfl
  · simp [factorialCell_spec]

/-- C42, second half, is false: the integer the argument referred to is overwritten with 0 for every `n ≥ 1`
(`x = 5; x!; x` gives 0). -/
theorem C42_argument_destroyed (n : Int) (hn : 1 ≤ n) : (factorialEval n).2 = 0 ∧ (factorialEval n).2 ≠ n := by
  unfold factorialEval
  rw [if_neg (by omega)]
  simp [factorialCell_spec]; omega

/-! ### C43 -/

/-- C43. For `n ≥ 2` the factor list ends, consists of primes in non-decreasing order and has product `n`. -/
theorem C43_factors (n : Nat) (hn : 2 ≤ n) : ∃ l : List Nat,
    (∃ F, ∀ fuel ≥ F, primeFactors fuel n = some (l.map (↑))) ∧
    (∀ p ∈ l, p.Prime) ∧ l.Pairwise (· ≤ ·) ∧ l.prod = n := by
  have get : ∀ f, n < f → ∃ l : List Nat, primeFactors f n = some (l.map (↑)) ∧ (∀ p ∈ l, p.Prime) ∧ l.Pairwise (· ≤ ·) ∧ l.prod = n := by
    intro f hf
    obtain ⟨l, h1, h2⟩ := pfLoop_spec f n (by omega) hf
    exact ⟨l, by unfold primeFactors; rw [if_neg (by omega)]; exact h1, h2⟩
  obtain ⟨l, hl, h1, h2, h3⟩ := get (n + 1) (by omega)
  refine ⟨l, ⟨n + 1, ?_⟩, h1, h2, h3⟩
  intro f hf
  obtain ⟨l', hl', h1', h2', h3'⟩ := get f (by omega)
  rw [hl']
  have hperm : l.Perm l' := by
    have a := Nat.primeFactorsList_unique (n := n) (l := l) h3 h1
    have b := Nat.primeFactorsList_unique (n := n) (l := l') h3' h1'
    exact a.trans b.symm
  have : l = l' := hperm.eq_of_pairwise (fun a b _ _ => le_antisymm) h2 h2'
  rw [this]

/-- C43. `1` is special-cased to the (non-prime) factor list `{1}`. -/
theorem C43_one (fuel : Nat) : primeFactors fuel 1 = some [1] := rfl

/-- C43. On zero and on negative numbers the factorisation loop never ends (the callers must exclude them). -/
theorem C43_diverges (n : Int) (hn : n ≤ 0) (fuel : Nat) : primeFactors fuel n = none := by
  unfold primeFactors
  rw [if_neg (by omega)]
  rcases eq_or_lt_of_le hn with h | h
  · rw [h]; exact pfLoop_zero fuel
  · exact pfLoop_neg fuel n h

/-- C43. The tallied factorisation of `n ≥ 2`: distinct primes in increasing order, each with its positive multiplicity, and
the product of the prime powers is `n`. -/
theorem C43_tallied (n : Nat) (hn : 2 ≤ n) : ∃ F, ∀ fuel ≥ F, ∃ t, primeFactorsTallied fuel n = some t ∧
    (t.map Prod.fst).Pairwise (· < ·) ∧ (∀ x ∈ t, x.1.toNat.Prime ∧ 0 < x.1 ∧ 0 < x.2) ∧
    (t.map (fun x => x.1 ^ x.2)).prod = (n : Int) := by
  obtain ⟨l, ⟨F, hF⟩, h1, h2, h3⟩ := C43_factors n hn
  refine ⟨F, fun f hf => ⟨_, by rw [primeFactorsTallied, hF f hf]; rfl, ?_⟩⟩
  obtain ⟨g1, g2, g3, g4, g5, g6⟩ := tally_spec (l.map (fun p : Nat => (p : Int)))
  refine ⟨g5 ?_, ?_, ?_⟩
  · rw [List.pairwise_map]; exact h2.imp (by intro a b h; exact_mod_cast h)
  · intro x hx
    have := (g3 x.1).1 (List.mem_map_of_mem hx)
    obtain ⟨p, hp, he⟩ := List.mem_map.1 this
    refine ⟨by rw [← he]; simpa using h1 p hp, by rw [← he]; exact_mod_cast (h1 p hp).pos, g4 x hx⟩
  · have : (l.map (fun p : Nat => (p : Int))).prod = ((l.prod : Nat) : Int) := by
      clear h1 h2 h3 hF g1 g2 g3 g4 g5 g6
      induction l with
      | nil => simp
      | cons a as ih => rw [List.map_cons, List.prod_cons, ih, List.prod_cons, Nat.cast_mul]
    rw [← h3, ← this, ← g1]; rfl

/-- C43 (test). -/
example : primeFactors 50 12 = some [2, 2, 3] ∧ primeFactorsTallied 50 12 = some [(2, 2), (3, 1)] := by decide

/-! ### C44 -/

/-- C44. For `m ≠ 0`, `Mod[a, m]` is the unique integer in `[0, |m|)` congruent to `a` modulo `m`; for `m = 0` it is `Indeterminate`.
(For negative `m` Mathematica would return a result with the sign of `m`; this code does not.) -/
theorem C44_mod (a m : Int) :
    (m = 0 → modEval a m = S "Indeterminate") ∧
    (m ≠ 0 → ∃ r, modEval a m = .int r ∧ 0 ≤ r ∧ r < |m| ∧ m ∣ (a - r) ∧
      ∀ r', 0 ≤ r' → r' < |m| → m ∣ (a - r') → r' = r) := by
  refine ⟨fun h => by simp [modEval, h], fun h => ⟨a % m, by simp [modEval, h], Int.emod_nonneg _ h, Int.emod_lt_abs a h, ?_, ?_⟩⟩
  · exact Int.dvd_self_sub_emod
  · intro r' h1 h2 h3
    have e1 : a % m = r' % m := Int.emod_eq_emod_iff_emod_sub_eq_zero.2 (Int.emod_eq_zero_of_dvd h3)
    rw [e1]
    rw [← Int.emod_abs r' m] 
    exact (Int.emod_eq_of_lt h1 h2).symm

/-- C44. `GCD` of any list of integers is nonnegative, divides all of them and is divisible by every common divisor. -/
theorem C44_gcd (l : List Int) : ∃ g, gcdEval (l.map .int) = .int g ∧ 0 ≤ g ∧ (∀ a ∈ l, g ∣ a) ∧
    ∀ d, (∀ a ∈ l, d ∣ a) → d ∣ g := by
  have hall : allInts (l.map .int) = some l := by
    induction l with
    | nil => rfl
    | cons a as ih => simp [allInts, ih]
  refine ⟨gcdInts l, by simp [gcdEval, hall], gcdInts_nonneg l, (dvd_gcdInts l _).1 (dvd_refl _), fun d hd => (dvd_gcdInts l d).2 hd⟩

/-- C44. `GCD` with a non-integer argument is left as it is. -/
theorem C44_gcd_unevaluated (args : List Ex) (h : ∃ a ∈ args, ∀ n, a ≠ .int n) : gcdEval args = .expr (S "GCD" :: args) := by
  have : allInts args = none := by
    induction args with
    | nil => simp at h
    | cons a as ih =>
      cases a with
      | int n =>
        obtain ⟨b, hb, hb'⟩ := h
        rcases List.mem_cons.1 hb with rfl | hb
        · exact absurd rfl (hb' n)
        · simp [allInts, ih ⟨b, hb, hb'⟩]
      | _ => rfl
  simp [gcdEval, this]

/-- C44 (test). -/
example : modEval 5 (-3) = .int 2 ∧ gcdEval [.int (-12), .int 0, .int 18] = .int 6 := by decide

/-! ### C45 -/

/-- C45. For `n ≥ 2` the integer root search ends, never divides by zero, returns `k` with `k^n = x` if there is one and reports
inexactness otherwise. -/
theorem C45_root (x n : Nat) (hn : 2 ≤ n) : ∃ F, ∀ fuel ≥ F, ∃ r, nthRoot fuel x n = some r ∧ ∀ k, r = some k ↔ k ^ n = x :=
  nthRoot_spec x n hn

/-- C45 (test): a perfect cube, and a non-square. -/
example : nthRoot 40 27 3 = some (some 3) ∧ nthRoot 40 10 2 = some none := by decide

/-! ### C56 -/

/-- C56 (part). An integer raised to a rational power `m/n` in lowest terms is rewritten without changing its (principal complex)
value, for nonnegative bases and any iteration order of the internal map, and for negative bases if the numerator is `1` or `-1`. -/
theorem C56_value_partial (order : List (Nat × Int) → List (Nat × Int)) (ho : ∀ l, (order l).Perm l)
    (x m : Int) (n : Nat) (hn : 2 ≤ n) (h : (0 ≤ x ∧ (x ≠ 0 ∨ 0 < m)) ∨ m = 1 ∨ m = -1) (hx0 : x = 0 → 0 < m) :
    ∃ F, ∀ fuel ≥ F, ∃ r, powerIntRat fuel order x m n = some r ∧ cval r = (x : ℂ) ^ ((m : ℂ) / (n : ℂ)) := by
  by_cases hx : 0 ≤ x
  · obtain ⟨F1, hF1⟩ := nthRoot_spec x.toNat n hn
    have hx' : ((x.toNat : Nat) : Int) = x := Int.toNat_of_nonneg hx
    by_cases hroot : ∃ k, k ^ n = x.toNat
    · obtain ⟨k, hk⟩ := hroot
      refine ⟨F1, fun f hf => ?_⟩
      obtain ⟨r, hr1, hr2⟩ := hF1 f hf
      have := (hr2 k).2 hk
      subst this
      unfold powerIntRat
      rw [if_pos hx, hr1]
      have e := cpow_root k x.toNat n (by omega) hk m
      rw [hx'] at e
      refine ⟨_, rfl, ?_⟩
      split
      · rename_i h1
        rw [← e, h1]; simp [cval]
      · rw [cval_power, ← e]; simp [cval]
    · -- not a perfect power: x ≥ 2
      have hx2 : 2 ≤ x.toNat := by
        by_contra hc
        have : x.toNat = 0 ∨ x.toNat = 1 := by omega
        rcases this with h0 | h1
        · exact hroot ⟨0, by rw [h0, zero_pow (by omega)]⟩
        · exact hroot ⟨1, by rw [h1, one_pow]⟩
      obtain ⟨F2, hF2⟩ := C43_tallied x.toNat hx2
      refine ⟨max F1 F2, fun f hf => ?_⟩
      obtain ⟨r, hr1, hr2⟩ := hF1 f (by omega)
      have hrn : r = none := by
        cases r with
        | none => rfl
        | some k => exact absurd ⟨k, (hr2 k).1 rfl⟩ hroot
      subst hrn
      obtain ⟨t, ht, ht1, ht2, ht3⟩ := hF2 f (by omega)
      rw [hx'] at ht ht3
      unfold powerIntRat
      rw [if_pos hx, hr1]
      simp only
      rw [ht]
      simp only
      cases hb : extractBases t with
      | some bases =>
        refine ⟨_, rfl, ?_⟩
        unfold extractBases at hb
        split at hb
        · cases hb
          obtain ⟨b1, b2⟩ := bases_fold t [] (by simp) (fun x hx => (ht2 x hx).2.1)
          have hp := ho (t.foldl basesAdd [])
          obtain ⟨c1, _⟩ := cval_extract (order (t.foldl basesAdd [])) (fun y hy => b2 y (hp.mem_iff.1 hy)) m n (by omega)
          rw [c1, basesProd_perm hp, b1]
          simp only [tallyProd, ht3]
          simp [basesProd]
        · simp at hb
      | none =>
        refine ⟨_, rfl, ?_⟩
        have hsq : ¬ (x.natAbs % 2 ^ n = 0) := by
          intro h0
          have h4 : (4 : Int) ∣ x := by
            have h1 : 2 ^ n ∣ x.natAbs := Nat.dvd_of_mod_eq_zero h0
            have h2 : 4 ∣ 2 ^ n := by
              have : (4 : Nat) = 2 ^ 2 := by norm_num
              rw [this]; exact pow_dvd_pow 2 hn
            have := h2.trans h1
            omega
          unfold extractBases at hb
          split at hb
          · simp at hb
          · rename_i hany
            have hall : ∀ y ∈ t, y.2 = 1 := by
              intro y hy
              have h1 := (ht2 y hy).2.2
              by_contra hc
              apply hany
              rw [List.any_eq_true]
              exact ⟨y, hy, by simp; omega⟩
            have hprod : ∀ s : List (Int × Nat), (∀ y ∈ s, y.2 = 1) → (∀ y ∈ s, y.1.toNat.Prime ∧ 0 < y.1 ∧ 0 < y.2) →
                (s.map Prod.fst).Pairwise (· < ·) → ¬ (4 : Int) ∣ (s.map (fun y => y.1 ^ y.2)).prod ∧
                ((∀ y ∈ s, y.1 ≠ 2) → ¬ (2 : Int) ∣ (s.map (fun y => y.1 ^ y.2)).prod) := by
              intro s
              induction s with
              | nil => intro _ _ _; simp
              | cons y ys ih =>
                intro a1 a2 a3
                obtain ⟨i1, i2⟩ := ih (fun z hz => a1 z (by simp [hz])) (fun z hz => a2 z (by simp [hz])) (by
                  rw [List.map_cons, List.pairwise_cons] at a3; exact a3.2)
                have hy1 := a1 y (by simp)
                obtain ⟨p1, p2, _⟩ := a2 y (by simp)
                rw [List.map_cons, List.pairwise_cons] at a3
                simp only [List.map_cons, List.prod_cons, hy1, pow_one]
                by_cases hy2 : y.1 = 2
                · rw [hy2]
                  have odd : ∀ z ∈ ys, z.1 ≠ 2 := by
                    intro z hz
                    have := a3.1 z.1 (List.mem_map_of_mem hz)
                    omega
                  have := i2 odd
                  refine ⟨?_, fun hh => absurd hy2 (hh y (by simp))⟩
                  omega
                · have hodd : ¬ (2 : Int) ∣ y.1 := by
                    intro hd
                    have hd' : 2 ∣ y.1.toNat := by omega
                    rcases (Nat.dvd_prime p1).1 hd' with h | h
                    · omega
                    · omega
                  have hcop : IsCoprime (4 : Int) y.1 := by
                    have h2p : IsCoprime (2 : Int) y.1 := by
                      rw [Int.isCoprime_iff_gcd_eq_one]
                      have := Int.gcd_dvd_left 2 y.1
                      have h12 : Int.gcd 2 y.1 = 1 ∨ Int.gcd 2 y.1 = 2 := (Nat.dvd_prime Nat.prime_two).1 (by exact_mod_cast this)
                      rcases h12 with h | h
                      · exact h
                      · exfalso; apply hodd
                        have := Int.gcd_dvd_right 2 y.1
                        rw [h] at this; exact this
                    have : (4 : Int) = 2 * 2 := by norm_num
                    rw [this]; exact h2p.mul_left h2p
                  have hcop2 : IsCoprime (2 : Int) y.1 := by
                    have : (4 : Int) = 2 * 2 := by norm_num
                    rw [this] at hcop; exact hcop.of_mul_left_left
                  refine ⟨fun hd => i1 (hcop.dvd_of_dvd_mul_left hd), fun hh hd => ?_⟩
                  exact i2 (fun z hz => hh z (by simp [hz])) (hcop2.dvd_of_dvd_mul_left hd)
            have := (hprod t hall ht2 ht1).1
            rw [ht3] at this
            exact this h4
        rw [radSimp, if_neg hsq]
        rw [cval_power]; simp [cval]
  · have hxneg : x < 0 := by omega
    refine ⟨0, fun f _ => ⟨_, tail_of_neg f order x m n hxneg, ?_⟩⟩
    split
    · rename_i h0
      obtain ⟨rad, hrad⟩ := Nat.dvd_of_mod_eq_zero h0
      have hr0 : rad ≠ 0 := by rintro rfl; simp at hrad; omega
      have hdiv : x.natAbs / 2 ^ n = rad := by rw [hrad]; exact Nat.mul_div_cancel_left _ (by positivity)
      have hxe : x = -(2 ^ n * (rad : Int)) := by
        have : (x.natAbs : Int) = 2 ^ n * rad := by rw [hrad]; push_cast; ring
        omega
      have e := cpow_pull rad hr0 n (by omega) m
      rw [hdiv, cval_times]
      simp only [List.map, List.prod_cons, List.prod_nil, mul_one, cval_power]
      conv_rhs => rw [hxe]
      rw [e]
      have : cval (.int (-(rad : Int))) ^ cval (.rat m (n : Int)) = ((-(rad : Int) : Int) : ℂ) ^ ((m : ℂ) / (n : ℂ)) := by
        simp [cval]
      rw [this]
      congr 1
      rcases h with ⟨h, _⟩ | rfl | rfl
      · omega
      · simp [cval]
      · simp [cval]
    · rw [cval_power]; simp [cval]

/-- C56 is false for negative bases with another numerator: if `2^n` divides `x < 0` and `m ∉ {-1, 0, 1}` the rewritten expression
has a different value (the extracted factor `2` is not raised to the power `m`). -/
theorem C56_wrong_negative_base (order : List (Nat × Int) → List (Nat × Int)) (x m : Int) (n : Nat) (hn : 1 ≤ n) (hx : x < 0)
    (hdvd : (2 ^ n : Int) ∣ x) (hm : m ≠ 1 ∧ m ≠ -1) (hm0 : m ≠ 0) (fuel : Nat) :
    ∃ r, powerIntRat fuel order x m n = some r ∧ cval r ≠ (x : ℂ) ^ ((m : ℂ) / (n : ℂ)) := by
  refine ⟨_, tail_of_neg fuel order x m n hx, ?_⟩
  have h0 : x.natAbs % 2 ^ n = 0 := by
    apply Nat.mod_eq_zero_of_dvd
    have : ((2 ^ n : Nat) : Int) ∣ x := by push_cast; exact hdvd
    exact Int.natCast_dvd.1 this
  rw [if_pos h0]
  obtain ⟨rad, hrad⟩ := Nat.dvd_of_mod_eq_zero h0
  have hr0 : rad ≠ 0 := by rintro rfl; simp at hrad; omega
  have hdiv : x.natAbs / 2 ^ n = rad := by rw [hrad]; exact Nat.mul_div_cancel_left _ (by positivity)
  have hxe : x = -(2 ^ n * (rad : Int)) := by
    have : (x.natAbs : Int) = 2 ^ n * rad := by rw [hrad]; push_cast; ring
    omega
  have e := cpow_pull rad hr0 n (by omega) m
  rw [hdiv, cval_times]
  simp only [List.map, List.prod_cons, List.prod_nil, mul_one, cval_power]
  conv_rhs => rw [hxe]
  rw [e]
  have : cval (.int (-(rad : Int))) ^ cval (.rat m (n : Int)) = ((-(rad : Int) : Int) : ℂ) ^ ((m : ℂ) / (n : ℂ)) := by
    simp [cval]
  rw [this]
  have hz : ((-(rad : Int) : Int) : ℂ) ≠ 0 := by
    have : (-(rad : Int)) ≠ 0 := by omega
    exact_mod_cast this
  have hpow : ((-(rad : Int) : Int) : ℂ) ^ ((m : ℂ) / (n : ℂ)) ≠ 0 := by
    rw [Complex.cpow_def_of_ne_zero hz]; exact Complex.exp_ne_zero _
  intro heq
  have heq' := mul_right_cancel₀ hpow heq
  split at heq'
  · have h2 : (2 : ℂ) ^ (-1 : Int) = (2 : ℂ) ^ m := by rw [← heq']; simp [cval]
    have h3 : (2 : ℝ) ^ (-1 : Int) = (2 : ℝ) ^ m := by
      apply Complex.ofReal_injective
      rw [Complex.ofReal_zpow, Complex.ofReal_zpow]; exact h2
    have := (zpow_right_injective₀ (by norm_num : (0 : ℝ) < 2) (by norm_num)) h3
    omega
  · have h2 : (2 : ℂ) ^ (1 : Int) = (2 : ℂ) ^ m := by rw [← heq']; simp [cval]
    have h3 : (2 : ℝ) ^ (1 : Int) = (2 : ℝ) ^ m := by
      apply Complex.ofReal_injective
      rw [Complex.ofReal_zpow, Complex.ofReal_zpow]; exact h2
    have := (zpow_right_injective₀ (by norm_num : (0 : ℝ) < 2) (by norm_num)) h3
    omega

/-- C56 (test): `(-8)^(2/3)` becomes `2 (-1)^(2/3)` instead of `4 (-1)^(2/3)`; `12^(1/2)` becomes `2^(2/2) 3^(1/2)`. -/
example : powerIntRat 40 id (-8) 2 3 = some (.expr [S "Times", .int 2, .expr [S "Power", .int (-1), .rat 2 3]]) ∧
    powerIntRat 40 id 12 1 2 = some (.expr [S "Times", .expr [S "Power", .int 2, .rat 2 2], .expr [S "Power", .int 3, .rat 1 2]]) := by
  decide

/-! ### C57 -/

/-- C57 (part). If the prime library returns the primes up to `n`, then `PrimePi[n]` is their number for every integer `n ≠ 1`. -/
theorem C57_primePi_partial (primes : Nat → List Nat) (hp : ∀ n, (primes n).Nodup ∧ ∀ p, p ∈ primes n ↔ p.Prime ∧ p ≤ n)
    (n : Int) (hn : n ≠ 1) :
    primePi primes n = (((List.range (n.toNat + 1)).filter (fun p => decide p.Prime)).length : Int) := by
  unfold primePi
  by_cases h0 : n ≤ 0
  · rw [if_pos h0]
    have : n.toNat = 0 := by omega
    rw [this]; rfl
  · rw [if_neg h0, if_neg hn]
    congr 1
    apply List.Perm.length_eq
    rw [List.perm_ext_iff_of_nodup (hp _).1 (List.nodup_range.filter _)]
    intro p
    rw [(hp _).2]
    simp [Nat.lt_succ_iff, and_comm]

/-- C57 is false at `1`: `PrimePi[1]` is `1`, although there is no prime up to 1. -/
theorem C57_not_at_one (primes : Nat → List Nat) :
    primePi primes 1 ≠ (((List.range ((1 : Int).toNat + 1)).filter (fun p => decide p.Prime)).length : Int) := by
  have : (List.range ((1 : Int).toNat + 1)).filter (fun p => decide p.Prime) = [] := by
    rw [List.filter_eq_nil_iff]
    intro p hp
    have : p = 0 ∨ p = 1 := by
      have := List.mem_range.1 hp
      simp at this; omega
    rcases this with rfl | rfl <;> simp [Nat.not_prime_zero, Nat.not_prime_one]
  rw [this]; simp [primePi]

/-! ### C58 -/

/-- C58. For every integer `n` and base at least 2, `IntegerDigits[n, b]` ends with digits below `b`, no leading zero, and
`FromDigits[IntegerDigits[n, b], b]` is `|n|`. -/
theorem C58_digits (n : Int) (b : Nat) (hb : 2 ≤ b) : ∃ F, ∀ fuel ≥ F, ∃ ds, integerDigits fuel n b = some ds ∧
    (∀ d ∈ ds, d < b) ∧ (∀ d, ds.head? = some d → d ≠ 0) ∧ fromDigits ds b = n.natAbs := by
  refine ⟨n.natAbs + 1, fun f hf => ?_⟩
  obtain ⟨ds, h1, h2, h3, h4⟩ := digitsLoop_spec b hb f n.natAbs [] (by omega)
  exact ⟨ds, by rw [integerDigits, h1]; simp, h2, h4, h3⟩

/-- C58. In base 1 (accepted by the pattern `base_Integer?Positive`) the loop never ends on a nonzero number. -/
theorem C58_base_one_diverges (n : Int) (hn : n ≠ 0) (fuel : Nat) : integerDigits fuel n 1 = none := by
  have key : ∀ f m acc, 0 < m → digitsLoop f 1 m acc = none := by
    intro f
    induction f with
    | zero => intros; rfl
    | succ f ih =>
      intro m acc hm
      unfold digitsLoop
      rw [if_pos hm]
      apply ih
      simp [Nat.mod_one]; exact hm
  exact key fuel _ _ (by omega)

/-- C58 (test). -/
example : integerDigits 200 (-123) 10 = some [1, 2, 3] ∧ fromDigits [1, 2, 3] 10 = 123 := by decide

end Expreduce
