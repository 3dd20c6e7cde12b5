import Verif.Proofs.NumRules
import Verif.Props.NumTheory
import Mathlib.Data.Nat.Fib.Basic

/-! # C100, C101, C102: number theory programs of the library -/

namespace Expreduce

theorem factorInt_one (fuel : Nat) : factorInt fuel 1 = some [(1, 1)] := rfl

theorem dropOnes_id {l : List (Int × Int)} (h : ∀ x ∈ l, x ≠ (1, 1)) : dropOnes l = l := by
  unfold dropOnes
  rw [List.filter_eq_self]
  intro a ha
  simpa using h a ha

/-- The factorisation of a nonzero integer. -/
theorem factorInt_spec (n : Int) (hn : n ≠ 0) (fuel : Nat) (hf : n.natAbs < fuel) : ∃ t, factorInt fuel n = some t ∧
    (t.map Prod.fst).Nodup ∧ (t.map Prod.fst).Pairwise (· < ·) ∧ ((t.map (fun x => (x.1 : ℚ) ^ x.2)).prod = n) ∧
    (t = [(1, 1)] ∧ n = 1 ∨ ∀ x ∈ t, (x = (-1, 1) ∧ n < 0) ∨ ∃ p : ℕ, p.Prime ∧ (p : Int) ∣ n ∧ x.1 = p ∧ 0 < x.2) := by
  rcases lt_or_gt_of_ne hn with hneg | hpos
  · have hfi : factorInt fuel n = (factorPos fuel (-n)).map (fun l => dropOnes ((-1, 1) :: l)) := by
      unfold factorInt; rw [if_neg hn, if_pos hneg]
    by_cases h1 : n = -1
    · subst h1
      refine ⟨[(-1, 1)], by rw [hfi]; rfl, by simp, by simp, by simp, .inr ?_⟩
      intro x hx
      exact .inl ⟨by simpa using hx, by norm_num⟩
    · obtain ⟨t, ht, h2, h3, h4, h5⟩ := factorPos_spec n.natAbs (by omega) fuel hf
      have hc : ((n.natAbs : Nat) : Int) = -n := by omega
      rw [hc] at ht
      have hprim : ∀ x ∈ t, 2 ≤ x.1 := by
        intro x hx
        obtain ⟨p, hp, _, e, _⟩ := h3 x hx
        rw [e]; exact_mod_cast hp.two_le
      have hd : dropOnes ((-1, 1) :: t) = (-1, 1) :: t := dropOnes_id (by
        intro x hx
        rcases List.mem_cons.1 hx with rfl | hx
        · decide
        · intro h; have := hprim x hx; rw [h] at this; norm_num at this)
      have hinc : (((-1, 1) :: t).map Prod.fst).Pairwise (· < ·) := by
        simp only [List.map_cons, List.pairwise_cons, List.mem_map]
        refine ⟨?_, h2⟩
        rintro y ⟨x, hx, rfl⟩
        have := hprim x hx
        omega
      refine ⟨(-1, 1) :: t, by rw [hfi, ht]; simp only [Option.map_some, hd], hinc.imp (fun h => ne_of_lt h), hinc, ?_, .inr ?_⟩
      · simp only [List.map_cons, List.prod_cons, h5]
        have : ((n.natAbs : Nat) : ℚ) = -n := by rw [← Int.cast_natCast, hc]; push_cast; rfl
        rw [this]; norm_num
      · intro x hx
        rcases List.mem_cons.1 hx with rfl | hx
        · exact .inl ⟨rfl, hneg⟩
        · obtain ⟨p, hp, hpd, e, hk⟩ := h3 x hx
          exact .inr ⟨p, hp, Int.natCast_dvd.2 hpd, e, hk⟩
  · have hfi : factorInt fuel n = factorPos fuel n := by
      unfold factorInt; rw [if_neg hn, if_neg (by omega)]
    by_cases h1 : n = 1
    · subst h1
      exact ⟨[(1, 1)], rfl, by simp, by simp, by simp, .inl ⟨rfl, rfl⟩⟩
    · obtain ⟨t, ht, h2, h3, h4, h5⟩ := factorPos_spec n.natAbs (by omega) fuel hf
      have hc : ((n.natAbs : Nat) : Int) = n := by omega
      rw [hc] at ht
      refine ⟨t, by rw [hfi, ht], h2.imp (fun h => ne_of_lt h), h2, ?_, .inr ?_⟩
      · rw [h5, ← Int.cast_natCast, hc]
      · intro x hx
        obtain ⟨p, hp, hpd, e, hk⟩ := h3 x hx
        exact .inr ⟨p, hp, Int.natCast_dvd.2 hpd, e, hk⟩

/-- **C100, `FactorInteger`.** For every nonzero integer or rational other than 1 the program ends with a factorisation: a sign if the
number is negative, then primes in increasing order with nonzero exponents, with the number as product. -/
theorem C100_factors (q : ℚ) (h0 : q ≠ 0) (h1 : q ≠ 1) : ∃ F, ∀ fuel ≥ F, ∃ t, factorInteger fuel q = some t ∧ Factorisation q t := by
  refine ⟨max q.num.natAbs q.den + 1, fun fuel hf => ?_⟩
  have hn0 : q.num ≠ 0 := by simpa using h0
  obtain ⟨a, ha, ha1, ha2, ha3, ha4⟩ := factorInt_spec q.num hn0 fuel (by omega)
  by_cases hd : q.den = 1
  · have hq : q = (q.num : ℚ) := by conv_lhs => rw [← Rat.num_div_den q, hd]; simp
    refine ⟨a, by unfold factorInteger; rw [if_pos hd]; exact ha, ha2, ?_, by rw [ha3, ← hq]⟩
    intro x hx
    rcases ha4 with ⟨_, hone⟩ | h
    · exact absurd (by rw [hq, hone]; rfl) h1
    · rcases h x hx with ⟨h, _⟩ | ⟨p, hp, _, e, hk⟩
      · exact .inl h
      · exact .inr ⟨p, hp, e, by omega⟩
  · have hden : (2 : Nat) ≤ q.den := by have := q.den_pos; omega
    obtain ⟨b, hb, hb1, hb2, hb3, hb4⟩ := factorInt_spec (q.den : Int) (by have := q.den_pos; omega) fuel (by rw [Int.natAbs_natCast]; omega)
    have hb5 : ∀ x ∈ b, ∃ p : ℕ, p.Prime ∧ p ∣ q.den ∧ x.1 = p ∧ 0 < x.2 := by
      intro x hx
      rcases hb4 with ⟨_, h⟩ | h
      · omega
      · rcases h x hx with ⟨_, h⟩ | ⟨p, hp, hpd, e, hk⟩
        · omega
        · exact ⟨p, hp, by exact_mod_cast hpd, e, hk⟩
    have hcop := q.reduced
    -- no prime is on both sides
    have hdis : ∀ x ∈ a, ∀ y ∈ b, x.1 ≠ y.1 := by
      intro x hx y hy he
      obtain ⟨p, hp, hpd, e, _⟩ := hb5 y hy
      rcases ha4 with ⟨hl, _⟩ | h
      · rw [hl] at hx
        simp only [List.mem_singleton] at hx
        subst hx
        simp only at he
        rw [e] at he
        have := hp.two_le; omega
      · rcases h x hx with ⟨h, _⟩ | ⟨p', hp', hpd', e', _⟩
        · rw [h] at he; simp only at he; rw [e] at he; have := hp.two_le; omega
        · have : p' = p := by rw [e', e] at he; exact_mod_cast he
          subst this
          have := Nat.Prime.dvd_iff_one_le_factorization hp' (n := 1)
          have h2 : p' ∣ Nat.gcd q.num.natAbs q.den := Nat.dvd_gcd (Int.natCast_dvd.1 hpd') hpd
          rw [hcop] at h2
          exact hp'.one_lt.ne' (Nat.dvd_one.1 h2)
    let b' := b.map (fun x => (x.1, -x.2))
    have hfst : b'.map Prod.fst = b.map Prod.fst := by simp [b', List.map_map, Function.comp_def]
    have hnd : ((a ++ b').map Prod.fst).Nodup := by
      rw [List.map_append, hfst, List.nodup_append]
      refine ⟨ha1, hb1, ?_⟩
      intro x hx y hy
      obtain ⟨u, hu, rfl⟩ := List.mem_map.1 hx
      obtain ⟨v, hv, rfl⟩ := List.mem_map.1 hy
      exact hdis u hu v hv
    let s := sortPairs (a ++ b')
    have hs1 : s.Perm (a ++ b') := sortPairs_perm _
    have hs2 : (s.map Prod.fst).Pairwise (· < ·) := sortPairs_increasing hnd
    have hsub : (dropOnes s).Sublist s := List.filter_sublist
    refine ⟨dropOnes s, ?_, hs2.sublist (hsub.map _), ?_, ?_⟩
    · unfold factorInteger factorRat
      rw [if_neg hd, ha, hb]
    · intro x hx
      have hx' := List.mem_filter.1 hx
      have hne : x ≠ (1, 1) := by simpa using hx'.2
      rcases List.mem_append.1 (hs1.mem_iff.1 hx'.1) with h | h
      · rcases ha4 with ⟨hl, _⟩ | h4
        · rw [hl] at h; exact absurd (by simpa using h) hne
        · rcases h4 x h with ⟨h, _⟩ | ⟨p, hp, _, e, hk⟩
          · exact .inl h
          · exact .inr ⟨p, hp, e, by omega⟩
      · obtain ⟨y, hy, rfl⟩ := List.mem_map.1 h
        obtain ⟨p, hp, _, e, hk⟩ := hb5 y hy
        exact .inr ⟨p, hp, e, by simp only; omega⟩
    · have hdrop : ∀ l : List (Int × Int), ((dropOnes l).map (fun x => (x.1 : ℚ) ^ x.2)).prod = (l.map (fun x => (x.1 : ℚ) ^ x.2)).prod := by
        intro l
        induction l with
        | nil => rfl
        | cons x l ih =>
          by_cases hx : x = (1, 1)
          · have : dropOnes (x :: l) = dropOnes l := by simp [dropOnes, hx]
            rw [this, ih, hx]; simp
          · have : dropOnes (x :: l) = x :: dropOnes l := by simp [dropOnes, hx]
            rw [this]; simp only [List.map_cons, List.prod_cons, ih]
      rw [hdrop, (hs1.map _).prod_eq, List.map_append, List.prod_append, ha3]
      have : (b'.map (fun x => (x.1 : ℚ) ^ x.2)).prod = ((q.den : Int) : ℚ)⁻¹ := by
        rw [← hb3]
        simp only [b', List.map_map, Function.comp_def]
        clear hb hb1 hb2 hb3 hb4 hb5 hdis hfst hnd hs1 hs2 hsub
        clear s b'
        induction b with
        | nil => simp
        | cons x b ih =>
          simp only [List.map_cons, List.prod_cons, mul_inv, zpow_neg]
          simp only [zpow_neg] at ih
          rw [ih]
      rw [this]
      conv_rhs => rw [← Rat.num_div_den q]
      simp [div_eq_mul_inv]

/-- **C100.** The two exceptions: `{{0, 1}}` and `{{1, 1}}`. -/
theorem C100_exceptions (fuel : Nat) : factorInteger fuel 0 = some [(0, 1)] ∧ factorInteger fuel 1 = some [(1, 1)] := ⟨rfl, rfl⟩

/-- **C100, `EulerPhi`.** `EulerPhi[n]` ends with the number of integers in `1..|n|` coprime to `n`, for every integer. -/
theorem C100_eulerPhi (n : Int) : ∃ F, ∀ fuel ≥ F, eulerPhi fuel n = some ((n.natAbs.totient : Nat) : ℚ) := by
  refine ⟨n.natAbs + 1, fun fuel hf => ?_⟩
  have key : ∀ m : Nat, 1 ≤ m → m < fuel → eulerPos fuel m = some ((m.totient : Nat) : ℚ) := by
    intro m hm hmf
    unfold eulerPos
    by_cases h1 : (m : Int) = 1
    · have : m = 1 := by omega
      subst this
      simp
    · rw [if_neg h1]
      obtain ⟨t, ht, h2, h3, h4, h5⟩ := factorPos_spec m (by omega) fuel hmf
      have hfi : factorInt fuel m = some t := by
        unfold factorInt; rw [if_neg (by omega), if_neg (by omega)]; exact ht
      rw [hfi, Option.map_some, Nat.totient_eq_mul_prod_factors]
      congr 1
      have e1 : (t.map (fun x => 1 - 1 / (x.1 : ℚ))) = (t.map Prod.fst).map (fun p : Int => 1 - 1 / (p : ℚ)) := by
        simp [List.map_map, Function.comp_def]
      have hnd : (t.map Prod.fst).Nodup := h2.imp (fun h => ne_of_lt h)
      rw [e1, ← List.prod_toFinset _ hnd]
      have e2 : (t.map Prod.fst).toFinset = m.primeFactors.image (fun p : Nat => (p : Int)) := by
        ext x
        simp only [List.mem_toFinset, Finset.mem_image, Nat.mem_primeFactors]
        constructor
        · intro hx
          obtain ⟨y, hy, rfl⟩ := List.mem_map.1 hx
          obtain ⟨p, hp, hpd, e, _⟩ := h3 y hy
          exact ⟨p, ⟨hp, hpd, by omega⟩, e.symm⟩
        · rintro ⟨p, ⟨hp, hpd, _⟩, rfl⟩
          exact h4 p hp hpd
      rw [e2, Finset.prod_image (by intro a _ b _ h; simpa using h)]
      simp
  unfold eulerPhi
  by_cases h0 : n = 0
  · subst h0; simp
  · rw [if_neg h0]
    by_cases hneg : n < 0
    · rw [if_pos hneg, show -n = ((n.natAbs : Nat) : Int) by omega]
      exact key _ (by omega) (by omega)
    · rw [if_neg hneg]
      conv_lhs => rw [show n = ((n.natAbs : Nat) : Int) by omega]
      exact key _ (by omega) (by omega)

/-- Such cases: `FactorInteger[-15/2]`, `EulerPhi[98]`. -/
example : factorInteger 20 (-15/2) = some [(-1, 1), (2, -1), (3, 1), (5, 1)] ∧ eulerPhi 100 98 = some 42 := by
  constructor
  · have : (-15/2 : ℚ).den = 2 ∧ (-15/2 : ℚ).num = -15 := by constructor <;> norm_num
    unfold factorInteger
    rw [this.1, this.2]
    decide +kernel
  · unfold eulerPhi eulerPos
    have : factorInt 100 98 = some [(2, 1), (7, 2)] := by decide +kernel
    rw [this]
    norm_num

/-! ### C101 -/

theorem dividesQ_add {d a b : ℚ} (h1 : DividesQ d a) (h2 : DividesQ d b) : DividesQ d (a + b) := by
  obtain ⟨k, rfl⟩ := h1
  obtain ⟨l, rfl⟩ := h2
  exact ⟨k + l, by push_cast; ring⟩

theorem dividesQ_mul {d a : ℚ} (h : DividesQ d a) (n : Int) : DividesQ d (n * a) := by
  obtain ⟨k, rfl⟩ := h
  exact ⟨n * k, by push_cast; ring⟩

theorem dividesQ_trans {a b c : ℚ} (h1 : DividesQ a b) (h2 : DividesQ b c) : DividesQ a c := by
  obtain ⟨k, rfl⟩ := h2
  exact dividesQ_mul h1 k

/-- Two numbers with a common denominator. -/
theorem isGcdQ_two (a b : Int) (N : ℚ) (hN : 0 < N) : IsGcdQ [(a : ℚ) / N, (b : ℚ) / N] ((Int.gcd a b : ℚ) / N) := by
  refine ⟨by positivity, ?_, ?_⟩
  · intro x hx
    simp only [List.mem_cons, List.not_mem_nil, or_false] at hx
    rcases hx with rfl | rfl
    · obtain ⟨k, hk⟩ := Int.gcd_dvd_left a b
      refine ⟨k, ?_⟩
      have : (a : ℚ) = (Int.gcd a b : ℚ) * k := by exact_mod_cast hk
      rw [this]; ring
    · obtain ⟨k, hk⟩ := Int.gcd_dvd_right a b
      refine ⟨k, ?_⟩
      have : (b : ℚ) = (Int.gcd a b : ℚ) * k := by exact_mod_cast hk
      rw [this]; ring
  · intro d hd
    have h1 := hd _ (List.mem_cons_self)
    have h2 := hd ((b : ℚ) / N) (by simp)
    have hb := Int.gcd_eq_gcd_ab a b
    have : (Int.gcd a b : ℚ) / N = (Int.gcdA a b) * ((a : ℚ) / N) + (Int.gcdB a b) * ((b : ℚ) / N) := by
      have : (Int.gcd a b : ℚ) = a * (Int.gcdA a b) + b * (Int.gcdB a b) := by exact_mod_cast hb
      rw [this]; ring
    rw [this]
    exact dividesQ_add (dividesQ_mul h1 _) (dividesQ_mul h2 _)

/-- The greatest common divisor step by step. -/
theorem isGcdQ_step {l l' rest : List ℚ} {g g' : ℚ} (h1 : IsGcdQ l g') (h2 : IsGcdQ (g' :: rest) g) (hp : l'.Perm (l ++ rest)) : IsGcdQ l' g := by
  refine ⟨h2.nonneg, ?_, ?_⟩
  · intro a ha
    rcases List.mem_append.1 (hp.mem_iff.1 ha) with h | h
    · exact dividesQ_trans (h2.divides g' (by simp)) (h1.divides a h)
    · exact h2.divides a (by simp [h])
  · intro d hd
    refine h2.greatest d ?_
    intro a ha
    rcases List.mem_cons.1 ha with rfl | ha
    · exact h1.greatest d (fun x hx => hd x (hp.mem_iff.2 (List.mem_append.2 (.inl hx))))
    · exact hd a (hp.mem_iff.2 (List.mem_append.2 (.inr ha)))

theorem isGcdQ_unique {l : List ℚ} {g g' : ℚ} (h : IsGcdQ l g) (h' : IsGcdQ l g') : g = g' := by
  obtain ⟨k, hk⟩ := h.greatest g' h'.divides
  obtain ⟨m, hm⟩ := h'.greatest g h.divides
  by_cases h0 : g' = 0
  · rw [hk, h0]; simp
  · have hpos : 0 < g' := lt_of_le_of_ne h'.nonneg (Ne.symm h0)
    have hkm : (m : ℚ) * k = 1 := by
      have : g' = (m * k) * g' := by rw [mul_assoc, ← hk]; exact hm
      have h2 : (1 - m * k : ℚ) * g' = 0 := by linarith
      rcases mul_eq_zero.1 h2 with h | h
      · linarith
      · exact absurd h h0
    have hkm' : m * k = 1 := by exact_mod_cast hkm
    have hk0 : 0 ≤ k := by
      by_contra hc
      have : (k : ℚ) < 0 := by exact_mod_cast (not_le.1 hc)
      have h3 := h.nonneg
      rw [hk] at h3
      nlinarith
    have : k = 1 := by
      rcases Int.isUnit_iff.1 (IsUnit.of_mul_eq_one m (by rw [mul_comm]; exact hkm')) with h | h
      · exact h
      · omega
    rw [hk, this]; simp

/-- The greatest common divisor of a list of integers. -/
theorem isGcdQ_ints (l : List Int) : IsGcdQ (l.map (fun n : Int => (n : ℚ))) (gcdInts l) := by
  have hex : ∃ g : Nat, IsGcdQ (l.map (fun n : Int => (n : ℚ))) g := by
    induction l with
    | nil => exact ⟨0, by simp, by simp, fun d _ => ⟨0, by simp⟩⟩
    | cons a l ih =>
      obtain ⟨g, hg⟩ := ih
      refine ⟨Int.gcd a g, ?_⟩
      have h2 := isGcdQ_two (g : Int) a 1 one_pos
      simp only [div_one] at h2
      refine isGcdQ_step hg (rest := [(a : ℚ)]) ?_ (by simpa using (List.perm_append_singleton _ _).symm)
      rw [Int.gcd_comm]
      exact_mod_cast h2
  obtain ⟨g, hg⟩ := hex
  obtain ⟨g', hg1, hg2, hg3, hg4⟩ := C44_gcd l
  have hgi : gcdInts l = g' := by
    have : gcdEval (l.map Ex.int) = .int (gcdInts l) := by
      have hall : ∀ l : List Int, allInts (l.map Ex.int) = some l := by
        intro l
        induction l with
        | nil => rfl
        | cons a l ih => simp [allInts, ih]
      simp only [gcdEval, hall]
    rw [this] at hg1
    exact Ex.int.inj hg1
  rw [hgi]
  have hint : ∀ (a d : Int), DividesQ (d : ℚ) (a : ℚ) ↔ d ∣ a := by
    intro a d
    constructor
    · rintro ⟨k, hk⟩
      exact ⟨k, by rw [mul_comm]; exact_mod_cast hk⟩
    · rintro ⟨k, rfl⟩
      exact ⟨k, by push_cast; ring⟩
  have h1 : g' ∣ (g : Int) := by
    rw [← hint]
    refine hg.greatest _ ?_
    intro a ha
    obtain ⟨n, hn, rfl⟩ := List.mem_map.1 ha
    exact (hint n g').2 (hg3 n hn)
  have h2 : (g : Int) ∣ g' := by
    refine hg4 _ ?_
    intro a ha
    rw [← hint]
    exact_mod_cast hg.divides (a : ℚ) (List.mem_map_of_mem ha)
  have : g' = g := Int.dvd_antisymm hg2 (by positivity) h1 h2
  rw [this]
  exact_mod_cast hg

theorem gcdInts_two (a b : Int) : gcdInts [a, b] = (Int.gcd a b : Int) := by
  have h1 := isGcdQ_ints [a, b]
  have h2 := isGcdQ_two a b 1 one_pos
  simp only [div_one] at h2
  have := isGcdQ_unique h1 h2
  exact_mod_cast this

/-- **C101, `GCD`.** Whatever arguments the rules pick, the result of `GCD` on integers and rationals is the greatest common divisor. -/
theorem C101_gcd {args : List ℚ} {g : ℚ} (h : GcdRun args g) : IsGcdQ args g := by
  induction h with
  | ints l => exact isGcdQ_ints l
  | @one q hq =>
    refine ⟨abs_nonneg _, ?_, ?_⟩
    · intro a ha
      simp only [List.mem_singleton] at ha
      subst ha
      rcases abs_choice a with h | h
      · exact ⟨1, by rw [h]; simp⟩
      · exact ⟨-1, by rw [h]; simp⟩
    · intro d hd
      have := hd q (by simp)
      rcases abs_choice q with h | h
      · rw [h]; exact this
      · rw [h]; simpa using dividesQ_mul this (-1)
  | @rats args rest p q g hp hq hperm _ ih =>
    have hp0 : (0 : ℚ) < p.den := by exact_mod_cast p.den_pos
    have hq0 : (0 : ℚ) < q.den := by exact_mod_cast q.den_pos
    have h2 := isGcdQ_two (p.num * q.den) (q.num * p.den) (p.den * q.den) (by positivity)
    have e1 : (((p.num * q.den : Int)) : ℚ) / (p.den * q.den) = p := by
      conv_rhs => rw [← Rat.num_div_den p]
      push_cast; field_simp
    have e2 : (((q.num * p.den : Int)) : ℚ) / (p.den * q.den) = q := by
      conv_rhs => rw [← Rat.num_div_den q]
      push_cast; field_simp
    rw [e1, e2] at h2
    refine isGcdQ_step h2 ?_ hperm
    rw [gcdInts_two, Int.cast_natCast] at ih
    exact ih
  | @ratInt args rest p g c hp hperm _ ih =>
    have hp0 : (0 : ℚ) < p.den := by exact_mod_cast p.den_pos
    have h2 := isGcdQ_two p.num (c * p.den) p.den hp0
    have e1 : ((p.num : Int) : ℚ) / p.den = p := Rat.num_div_den p
    have e2 : (((c * p.den : Int)) : ℚ) / p.den = c := by push_cast; field_simp
    rw [e1, e2] at h2
    refine isGcdQ_step h2 ?_ hperm
    rw [gcdInts_two, Int.cast_natCast] at ih
    exact ih

/-- **C101.** `GCD` ends on every list of integers and rationals: there is always a rule to go on with, each shortens the list. -/
theorem C101_gcd_ends (args : List ℚ) : ∃ g, GcdRun args g := by
  induction hn : args.length using Nat.strong_induction_on generalizing args with
  | _ n ih =>
    by_cases hall : ∀ q ∈ args, q.den = 1
    · refine ⟨(gcdInts (args.map (fun q => q.num)) : ℚ), ?_⟩
      have : args = (args.map (fun q => q.num)).map (fun n : Int => (n : ℚ)) := by
        rw [List.map_map]
        conv_lhs => rw [← List.map_id args]
        refine List.map_congr_left ?_
        intro q hq
        simp only [id, Function.comp]
        conv_lhs => rw [← Rat.num_div_den q, hall q hq]
        simp
      have h := GcdRun.ints (args.map (fun q => q.num))
      rw [← this] at h
      exact h
    · push_neg at hall
      obtain ⟨p, hp, hpd⟩ := hall
      obtain ⟨rest, hrest⟩ : ∃ rest, args.Perm (p :: rest) := ⟨_, List.perm_cons_erase hp⟩
      have hlen := hrest.length_eq
      cases rest with
      | nil =>
        rw [List.perm_singleton.1 hrest]
        exact ⟨_, .one hpd⟩
      | cons q rest =>
        simp only [List.length_cons] at hlen
        by_cases hqd : q.den = 1
        · have hq : q = ((q.num : Int) : ℚ) := by conv_lhs => rw [← Rat.num_div_den q, hqd]; simp
          obtain ⟨g, hg⟩ := ih (rest.length + 1) (by omega) ((gcdInts [p.num, q.num * p.den] : ℚ) / p.den :: rest) (by simp)
          rw [hq] at hrest
          exact ⟨g, .ratInt hpd hrest hg⟩
        · obtain ⟨g, hg⟩ := ih (rest.length + 1) (by omega) ((gcdInts [p.num * q.den, q.num * p.den] : ℚ) / (p.den * q.den) :: rest) (by simp)
          exact ⟨g, .rats hpd hqd hrest hg⟩

theorem isLcmQ_two {a b g : ℚ} (ha : 0 < a) (hb : 0 < b) (hg : IsGcdQ [a, b] g) (h0 : g ≠ 0) : IsLcmQ [a, b] (a / g * b) := by
  have hg0 : 0 < g := lt_of_le_of_ne hg.nonneg (Ne.symm h0)
  obtain ⟨k, hk⟩ := hg.divides a (by simp)
  obtain ⟨l, hl⟩ := hg.divides b (by simp)
  refine ⟨by positivity, ?_, ?_⟩
  · intro x hx
    simp only [List.mem_cons, List.not_mem_nil, or_false] at hx
    rcases hx with rfl | rfl
    · exact ⟨l, by rw [hl]; field_simp⟩
    · exact ⟨k, by rw [hk]; field_simp⟩
  · intro n hn
    obtain ⟨i, hi⟩ := hn a (by simp)
    obtain ⟨j, hj⟩ := hn b (by simp)
    -- Bezout: the numbers k and l are coprime
    have hcop : Int.gcd k l = 1 := by
      have h1 : IsGcdQ [a, b] ((Int.gcd k l : ℚ) * g) := by
        have h2 := isGcdQ_two k l (1 / g) (by positivity)
        have e1 : (k : ℚ) / (1 / g) = a := by rw [hk]; field_simp
        have e2 : (l : ℚ) / (1 / g) = b := by rw [hl]; field_simp
        have e3 : (Int.gcd k l : ℚ) / (1 / g) = (Int.gcd k l : ℚ) * g := by field_simp
        rw [e1, e2, e3] at h2
        exact h2
      have := isGcdQ_unique hg h1
      have h3 : ((Int.gcd k l : ℚ) - 1) * g = 0 := by linarith
      rcases mul_eq_zero.1 h3 with h | h
      · have : (Int.gcd k l : ℚ) = 1 := by linarith
        exact_mod_cast this
      · exact absurd h h0
    have hb2 := Int.gcd_eq_gcd_ab k l
    rw [hcop] at hb2
    refine ⟨j * Int.gcdA k l + i * Int.gcdB k l, ?_⟩
    have h1 : (1 : ℚ) = k * Int.gcdA k l + l * Int.gcdB k l := by exact_mod_cast hb2
    push_cast
    have e1 : a / g = k := by rw [hk]; field_simp
    rw [e1]
    calc n = n * 1 := by ring
      _ = n * (k * Int.gcdA k l) + n * (l * Int.gcdB k l) := by rw [h1]; ring
      _ = (j * b) * (k * Int.gcdA k l) + (i * a) * (l * Int.gcdB k l) := by rw [← hj, ← hi]
      _ = _ := by
        have : a * (l : ℚ) = k * b := by rw [hk, hl]; ring
        calc (j * b) * (k * Int.gcdA k l) + (i * a) * (l * Int.gcdB k l) = j * Int.gcdA k l * (k * b) + i * Int.gcdB k l * (a * l) := by ring
          _ = _ := by rw [this]; ring

/-- **C101, `LCM`.** On positive integers and rationals `LCM` is the least common multiple. -/
theorem C101_lcm_partial {args : List ℚ} {m : ℚ} (h : LcmRun args m) (hpos : ∀ a ∈ args, 0 < a) : IsLcmQ args m := by
  induction h with
  | @two args a b g hperm hg h0 =>
    have ha := hpos a (hperm.mem_iff.2 (by simp))
    have hb := hpos b (hperm.mem_iff.2 (by simp))
    obtain ⟨h1, h2, h3⟩ := isLcmQ_two ha hb (C101_gcd hg) h0
    exact ⟨h1, fun x hx => h2 x (hperm.mem_iff.1 hx), fun n hn => h3 n (fun x hx => hn x (hperm.mem_iff.2 hx))⟩
  | @more args rest a b l r hne hperm _ _ ih1 ih2 =>
    have ha := hpos a (hperm.mem_iff.2 (by simp))
    have hb := hpos b (hperm.mem_iff.2 (by simp))
    obtain ⟨h1, h2, h3⟩ := ih1 (by
      intro x hx
      simp only [List.mem_cons, List.not_mem_nil, or_false] at hx
      rcases hx with rfl | rfl
      · exact ha
      · exact hb)
    obtain ⟨g1, g2, g3⟩ := ih2 (by
      intro x hx
      rcases List.mem_cons.1 hx with rfl | hx
      · exact h1
      · exact hpos x (hperm.mem_iff.2 (by simp [hx])))
    refine ⟨g1, ?_, ?_⟩
    · intro x hx
      have := hperm.mem_iff.1 hx
      simp only [List.mem_cons] at this
      rcases this with rfl | rfl | hx
      · exact dividesQ_trans (h2 _ (by simp)) (g2 l (by simp))
      · exact dividesQ_trans (h2 _ (by simp)) (g2 l (by simp))
      · exact g2 x (by simp [hx])
    · intro n hn
      refine g3 n ?_
      intro x hx
      rcases List.mem_cons.1 hx with rfl | hx
      · refine h3 n ?_
        intro y hy
        simp only [List.mem_cons, List.not_mem_nil, or_false] at hy
        rcases hy with rfl | rfl
        · exact hn _ (hperm.mem_iff.2 (by simp))
        · exact hn _ (hperm.mem_iff.2 (by simp))
      · exact hn x (hperm.mem_iff.2 (by simp [hx]))

/-- **C101, `LCM` is wrong for a negative argument**: the result is negative, `LCM[-4, 6]` is `-12`. -/
theorem C101_lcm_negative {a b m : ℚ} (ha : a < 0) (hb : 0 < b) (h : LcmRun [a, b] m) : m < 0 := by
  generalize hl : [a, b] = args at h
  cases h with
  | @two _ c d g hperm hg h0 =>
    have hg0 : 0 < g := lt_of_le_of_ne (C101_gcd hg).nonneg (Ne.symm h0)
    rw [← hl] at hperm
    have hprod : c * d = a * b := by simpa using (hperm.prod_eq).symm
    have : c / g * d = a * b / g := by rw [← hprod]; ring
    rw [this]
    exact div_neg_of_neg_of_pos (mul_neg_of_neg_of_pos ha hb) hg0
  | @more _ rest c d l r hne hperm _ _ =>
    have := hperm.length_eq
    rw [← hl] at this
    simp only [List.length_cons, List.length_nil] at this
    exact absurd (List.length_eq_zero_iff.1 (by omega)) hne

/-- **C101, `LCM[0, 0]` is not a number**: the program divides by zero. -/
theorem C101_lcm_zero (m : ℚ) : ¬ LcmRun [0, 0] m := by
  intro h
  generalize hl : [(0 : ℚ), 0] = args at h
  cases h with
  | @two _ c d g hperm hg h0 =>
    rw [← hl] at hperm
    have hz : ∀ x ∈ [c, d], x = 0 := by
      intro x hx
      have := hperm.mem_iff.2 hx
      simpa using this
    have : IsGcdQ [c, d] 0 := ⟨le_rfl, fun a ha => ⟨0, by rw [hz a ha]; simp⟩, fun d _ => ⟨0, by simp⟩⟩
    exact h0 (isGcdQ_unique (C101_gcd hg) this)
  | @more _ rest c d l r hne hperm _ _ =>
    have := hperm.length_eq
    rw [← hl] at this
    simp only [List.length_cons, List.length_nil] at this
    exact absurd (List.length_eq_zero_iff.1 (by omega)) hne

/-- **C101, `Mod`.** For an integer or rational `q` and a nonzero integer `c`, `Mod[q, c]` is the number in `[0, |c|)` that differs from
`q` by a multiple of `c`. -/
theorem C101_mod (q : ℚ) (c : Int) (hc : c ≠ 0) : ∃ r, modRat q c = some r ∧ 0 ≤ r ∧ r < |(c : ℚ)| ∧ DividesQ c (q - r) := by
  have hd : (0 : ℚ) < q.den := by exact_mod_cast q.den_pos
  have hcd : c * (q.den : Int) ≠ 0 := mul_ne_zero hc (by have := q.den_pos; omega)
  refine ⟨_, by unfold modRat; rw [if_neg hc], ?_, ?_, ?_⟩
  · have := Int.emod_nonneg q.num hcd
    have : (0 : ℚ) ≤ ((q.num % (c * q.den) : Int) : ℚ) := by exact_mod_cast this
    positivity
  · have := Int.emod_lt_abs q.num hcd
    rw [div_lt_iff₀ hd]
    have h2 : |c * (q.den : Int)| = |c| * q.den := by rw [abs_mul]; simp
    rw [h2] at this
    exact_mod_cast this
  · refine ⟨q.num / (c * q.den), ?_⟩
    have h := Int.emod_add_mul_ediv q.num (c * q.den)
    have h' : ((q.num % (c * q.den) : Int) : ℚ) + (c * q.den) * ((q.num / (c * q.den) : Int) : ℚ) = q.num := by exact_mod_cast h
    have h2 : ((q.num % (c * q.den) : Int) : ℚ) = q.num - (c * q.den) * ((q.num / (c * q.den) : Int) : ℚ) := by linarith
    rw [h2]
    conv_lhs => lhs; rw [← Rat.num_div_den q]
    field_simp
    ring

/-- **C101, `IntegerPart` and `FractionalPart`.** They add up to the number, the integer part is an integer, the fractional part is
smaller than 1 and has the sign of the number. -/
theorem C101_parts (q : ℚ) : ∃ i f, integerPart q = some i ∧ fractionalPart q = some f ∧ i + f = q ∧ i.den = 1 ∧ |f| < 1 ∧
    (0 ≤ q → 0 ≤ f ∧ 0 ≤ i) ∧ (q ≤ 0 → f ≤ 0 ∧ i ≤ 0) := by
  by_cases hd : q.den = 1
  · refine ⟨q, 0, by unfold integerPart; rw [if_pos hd], by unfold fractionalPart; rw [if_pos hd], by simp, hd, by simp, ?_, ?_⟩
    · intro h; exact ⟨le_rfl, h⟩
    · intro h; exact ⟨le_rfl, h⟩
  · have key : ∀ q : ℚ, 0 ≤ q → ∃ r : ℚ, modRat q 1 = some r ∧ 0 ≤ r ∧ r < 1 ∧ 0 ≤ q - r ∧ (q - r).den = 1 := by
      intro q hq
      obtain ⟨r, h1, h2, h3, k, hk⟩ := C101_mod q 1 one_ne_zero
      simp only [Int.cast_one, abs_one] at h3
      simp only [Int.cast_one, mul_one] at hk
      refine ⟨r, h1, h2, h3, ?_, by rw [hk]; exact Rat.den_intCast k⟩
      have : (-1 : ℚ) < k := by linarith
      have : (-1 : Int) < k := by exact_mod_cast this
      rw [hk]
      exact_mod_cast (by omega : 0 ≤ k)
    by_cases hq : 0 ≤ q
    · obtain ⟨r, h1, h2, h3, h4, h5⟩ := key q hq
      have hf : fractionalPart q = some r := by unfold fractionalPart; rw [if_neg hd, if_pos hq, h1]
      refine ⟨q - r, r, by unfold integerPart; rw [if_neg hd, hf]; rfl, hf, by ring, h5, by rw [abs_of_nonneg h2]; exact h3, fun _ => ⟨h2, h4⟩, ?_⟩
      intro hle
      have : q = 0 := le_antisymm hle hq
      exact absurd (by rw [this]; rfl) hd
    · have hq' : 0 ≤ -q := by linarith
      obtain ⟨r, h1, h2, h3, h4, h5⟩ := key (-q) hq'
      have hf : fractionalPart q = some (-r) := by unfold fractionalPart; rw [if_neg hd, if_neg hq, h1]; rfl
      refine ⟨q + r, -r, by unfold integerPart; rw [if_neg hd, hf]; simp, hf, by ring, ?_, by rw [abs_neg, abs_of_nonneg h2]; exact h3, fun h => absurd h hq, ?_⟩
      · have : q + r = -(-q - r) := by ring
        rw [this, Rat.den_neg_eq_den]; exact h5
      · intro _; constructor <;> linarith

/-- **C101, `Sign`.** -/
theorem C101_sign (q : ℚ) : (signFn q : ℚ) * |q| = q ∧ (signFn q = 0 ↔ q = 0) ∧ |signFn q| ≤ 1 := by
  unfold signFn
  rcases lt_trichotomy q 0 with h | h | h
  · rw [if_pos h]; refine ⟨by rw [abs_of_neg h]; push_cast; ring, by constructor <;> intro h' <;> [norm_num at h'; linarith], by norm_num⟩
  · subst h; simp
  · rw [if_neg (by linarith), if_pos h]; refine ⟨by rw [abs_of_pos h]; push_cast; ring, by constructor <;> intro h' <;> [norm_num at h'; linarith], by norm_num⟩

/-- Such cases: `GCD[5/2, 15/2]` is `5/2`, and two positive numbers have a least common multiple. -/
example : GcdRun [5/2, 15/2] (5/2) ∧ ∃ m, LcmRun [2/3, 1/3] m ∧ IsLcmQ [2/3, 1/3] m := by
  constructor
  · obtain ⟨g, hg⟩ := C101_gcd_ends [5/2, 15/2]
    have h1 := C101_gcd hg
    have h2 : IsGcdQ [5/2, 15/2] ((Int.gcd 5 15 : ℚ) / 2) := by
      have := isGcdQ_two 5 15 2 (by norm_num)
      norm_num at this ⊢
      exact this
    have : g = 5/2 := by
      rw [isGcdQ_unique h1 h2]
      have : Int.gcd 5 15 = 5 := by decide
      rw [this]; norm_num
    subst this
    exact hg
  · obtain ⟨g, hg⟩ := C101_gcd_ends [2/3, 1/3]
    have h0 : g ≠ 0 := by
      rintro rfl
      obtain ⟨k, hk⟩ := (C101_gcd hg).divides (2/3) (by simp)
      norm_num at hk
    have hl : LcmRun [2/3, 1/3] (2/3 / g * (1/3)) := .two (List.Perm.refl _) hg h0
    exact ⟨_, hl, C101_lcm_partial hl (by intro a ha; simp only [List.mem_cons, List.not_mem_nil, or_false] at ha; rcases ha with rfl | rfl <;> norm_num)⟩

/-! ### C102 -/

/-- **C102, `Fibonacci`.** `Fibonacci[n]` is the `n`-th Fibonacci number for `n ≥ 0`. -/
theorem C102_fibonacci_partial (n : Nat) : ∃ F, ∀ fuel ≥ F, fibonacci fuel n = some (Nat.fib n : Int) := by
  have key : ∀ f n : Nat, n < f → fibonacci f n = some (Nat.fib n : Int) := by
    intro f
    induction f with
    | zero => intro n h; omega
    | succ f ih =>
      intro n hn
      match n with
      | 0 => rfl
      | 1 => rfl
      | n + 2 =>
        unfold fibonacci
        rw [if_neg (by omega), if_neg (by omega)]
        have e1 : ((n + 2 : Nat) : Int) - 1 = ((n + 1 : Nat) : Int) := by omega
        have e2 : ((n + 2 : Nat) : Int) - 2 = ((n : Nat) : Int) := by omega
        rw [e1, e2, ih (n + 1) (by omega), ih n (by omega)]
        simp only [Nat.fib_add_two]
        push_cast
        rw [add_comm]
  exact ⟨n + 1, fun f hf => key f n (by omega)⟩

/-- **C102, `Fibonacci` of a negative number never ends.** -/
theorem C102_fibonacci_negative (n : Int) (hn : n < 0) (fuel : Nat) : fibonacci fuel n = none := by
  induction fuel generalizing n with
  | zero => rfl
  | succ f ih =>
    unfold fibonacci
    rw [if_neg (by omega), if_neg (by omega), ih (n - 1) (by omega)]

/-- **C102, `Multinomial`.** The value is the multinomial coefficient: the natural number `m` with `m · k1! ⋯ kr! = (k1 + ⋯ + kr)!`. -/
theorem C102_multinomial (l : List Nat) : ∃ m : Nat, multinomial l = m ∧ m * (l.map Nat.factorial).prod = Nat.factorial l.sum := by
  have key : (l.map Nat.factorial).prod ∣ Nat.factorial l.sum := by
    induction l with
    | nil => simp
    | cons a l ih =>
      simp only [List.map_cons, List.prod_cons, List.sum_cons]
      exact dvd_trans (mul_dvd_mul_left _ ih) (Nat.factorial_mul_factorial_dvd_factorial_add a l.sum)
  obtain ⟨m, hm⟩ := key
  refine ⟨m, ?_, by rw [hm]; ring⟩
  unfold multinomial
  have e : (l.map (fun k => (Nat.factorial k : ℚ))).prod = (((l.map Nat.factorial).prod : Nat) : ℚ) := by
    rw [Nat.cast_list_prod, List.map_map]
    rfl
  have hne : (((l.map Nat.factorial).prod : Nat) : ℚ) ≠ 0 := by
    have : (l.map Nat.factorial).prod ≠ 0 := by
      intro h
      have h := List.prod_eq_zero_iff.1 h
      obtain ⟨k, _, hk⟩ := List.mem_map.1 h
      exact Nat.factorial_ne_zero k hk
    exact_mod_cast this
  rw [e, hm, div_eq_iff hne]
  push_cast
  ring

/-- **C102, `Tuples`.** `Tuples[list, n]` contains exactly the lists of `n` elements of `list`; each once if the elements are different;
there are `k^n` of them. -/
theorem C102_tuples {α : Type} (list : List α) (n : Nat) : (∀ t, t ∈ tuples list n ↔ t.length = n ∧ ∀ x ∈ t, x ∈ list) ∧
    (tuples list n).length = list.length ^ n ∧ (list.Nodup → (tuples list n).Nodup) := by
  induction n with
  | zero =>
    refine ⟨fun t => ?_, rfl, fun _ => by simp [tuples]⟩
    simp only [tuples, List.mem_singleton, List.length_eq_zero_iff]
    constructor
    · rintro rfl; simp
    · exact fun h => h.1
  | succ n ih =>
    obtain ⟨h1, h2, h3⟩ := ih
    refine ⟨fun t => ?_, ?_, fun hnd => ?_⟩
    · simp only [tuples, List.mem_flatten, List.mem_map]
      constructor
      · rintro ⟨l, ⟨e, he, rfl⟩, ht⟩
        obtain ⟨s, hs, rfl⟩ := List.mem_map.1 ht
        obtain ⟨g1, g2⟩ := (h1 s).1 hs
        refine ⟨by simp [g1], ?_⟩
        intro x hx
        rcases List.mem_cons.1 hx with rfl | hx
        · exact he
        · exact g2 x hx
      · rintro ⟨g1, g2⟩
        cases t with
        | nil => simp at g1
        | cons e s =>
          refine ⟨_, ⟨e, g2 e (by simp), rfl⟩, List.mem_map_of_mem ((h1 s).2 ⟨by simpa using g1, fun x hx => g2 x (by simp [hx])⟩)⟩
    · simp only [tuples, List.length_flatten, List.map_map, Function.comp_def, List.length_map, h2]
      rw [List.map_const', List.sum_replicate, smul_eq_mul, pow_succ]
      ring
    · simp only [tuples]
      rw [List.nodup_flatten]
      refine ⟨?_, ?_⟩
      · intro l hl
        obtain ⟨e, _, rfl⟩ := List.mem_map.1 hl
        exact (h3 hnd).map (fun a b h => by simpa using h)
      · rw [List.pairwise_map]
        refine hnd.imp ?_
        intro a b hab t ht hs
        obtain ⟨u, _, rfl⟩ := List.mem_map.1 ht
        obtain ⟨v, _, hv⟩ := List.mem_map.1 hs
        simp only [List.cons.injEq] at hv
        exact hab hv.1.symm

/-- Such cases. -/
example : fibonacci 30 20 = some 6765 ∧ tuples [1, 2] 2 = [[1, 1], [1, 2], [2, 1], [2, 2]] := by
  refine ⟨?_, by decide⟩
  obtain ⟨F, hF⟩ := C102_fibonacci_partial 20
  decide +kernel

example : multinomial [1, 3, 1] = 20 := by norm_num [multinomial, Nat.factorial]

end Expreduce
