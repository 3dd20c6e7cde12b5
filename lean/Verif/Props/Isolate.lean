import Verif.Proofs.Isolate

/-!
# C127: isolating a variable in an equation

See `Verif/Model/Isolate.lean` and `Verif/Spec/Isolate.lean`.
-/

namespace Expreduce
open Ex Iso

namespace Iso
variable {O : Ex → Option ℂ} {σ : String → ℂ} {x : String}

/-- The product of a number and a root. -/
theorem val_two {a b : Ex} {c w : ℂ} (ha : val O σ a = some c) (hb : val O σ b = some w) : val O σ (.expr [S "Times", a, b]) = some (c * w) := by
  rw [val_times, prodVal, prodVal, prodVal, ha, hb]; simp
theorem val_three {a b d : Ex} {c e w : ℂ} (ha : val O σ a = some c) (hb : val O σ b = some e) (hd : val O σ d = some w) :
    val O σ (.expr [S "Times", a, b, d]) = some (c * (e * w)) := by
  rw [val_times, prodVal, prodVal, prodVal, prodVal, ha, hb, hd]; simp
theorem val_neg1 : val O σ (.int (-1)) = some (-1 : ℂ) := by rw [val]; simp
theorem val_I : val O σ (.cplx (.int 0) (.int 1)) = some Complex.I := by rw [val]; simp
theorem val_negI : val O σ (.cplx (.int 0) (.int (-1))) = some (-Complex.I) := by rw [val]; simp

/-- What is needed of the right sides for a power. -/
structure RootsRight (O : Ex → Option ℂ) (x : String) (r : Ex) (p : Nat) (l : List Ex) : Prop where
  pos : p ≠ 0
  ne : l ≠ []
  free : occ x r = 0 → ∀ s ∈ l, occ x s = 0
  undef : ∀ σ, val O σ r = none → ∀ s ∈ l, val O σ s = none
  roots : ∀ σ v, val O σ r = some v → ∀ z, z ^ p = v ↔ ∃ s ∈ l, val O σ s = some z

theorem root_undef {r : Ex} (h : val O σ r = none) (e : Ex) : val O σ (pow r e) = none := by rw [val_pow, h]; rfl
theorem prod_undef1 {a b : Ex} (h : val O σ b = none) : val O σ (.expr [S "Times", a, b]) = none := by
  rw [val_times, prodVal, prodVal, h]; cases val O σ a <;> rfl
theorem prod_undef2 {a b d : Ex} (h : val O σ d = none) : val O σ (.expr [S "Times", a, b, d]) = none := by
  rw [val_times, prodVal, prodVal, prodVal, h]; cases val O σ a <;> cases val O σ b <;> rfl

theorem rootsRight (O : Ex → Option ℂ) (x : String) (r : Ex) : ∀ (p : Int) (l : List Ex), rootsOf r p = some l → RootsRight O x r p.toNat l := by
  intro p l h
  unfold rootsOf at h
  split at h
  · cases h
    refine ⟨by decide, by simp, ?_, ?_, ?_⟩
    · intro h0; simp [occ, occL, pow, h0]
    · intro σ hn; simp [root_undef hn, prod_undef1]
    · intro σ v hv z
      have hr := val_root hv 2 (by norm_num)
      have hw := root_pow v 2 (by norm_num)
      push_cast at hr hw
      generalize v ^ ((2 : ℂ)⁻¹) = w at hr hw
      have h1 := val_two (val_neg1 (O := O) (σ := σ)) hr
      simp only [List.mem_cons, List.not_mem_nil, or_false, exists_eq_or_imp, exists_eq_left, h1, hr, Option.some.injEq]
      show z ^ 2 = v ↔ _
      rw [← hw, sq_eq_sq_iff_eq_or_eq_neg]
      constructor
      · rintro (h | h); exacts [.inr h.symm, .inl (by rw [h]; ring)]
      · rintro (h | h); exacts [.inr (by rw [← h]; ring), .inl h.symm]
  · cases h
    refine ⟨by decide, by simp, ?_, ?_, ?_⟩
    · intro h0; simp [occ, occL, pow, root1, h0]
    · intro σ hn; simp [root_undef hn, prod_undef1, prod_undef2]
    · intro σ v hv z
      have hr := val_root hv 3 (by norm_num)
      have hw := root_pow v 3 (by norm_num)
      have hu := root_pow (-1) 3 (by norm_num)
      have hne := root_ne 3 (by norm_num)
      have r1 := val_root1 (O := O) (σ := σ) 1 3 (by norm_num)
      have r2 := val_root1 (O := O) (σ := σ) 2 3 (by norm_num)
      push_cast at hr hw hu hne r1 r2
      simp only [zpow_one, zpow_ofNat] at r1 r2
      generalize v ^ ((3 : ℂ)⁻¹) = w at hr hw
      generalize (-1 : ℂ) ^ ((3 : ℂ)⁻¹) = u at hu hne r1 r2
      have h1 := val_three (val_neg1 (O := O) (σ := σ)) r1 hr
      have h2 := val_two r2 hr
      simp only [List.mem_cons, List.not_mem_nil, or_false, exists_eq_or_imp, exists_eq_left, h1, h2, hr, Option.some.injEq]
      show z ^ 3 = v ↔ _
      rw [← hw]
      constructor
      · intro h
        obtain ⟨i, hi, e⟩ := prime_roots 3 Nat.prime_three (u := -u) (by rw [neg_pow, hu]; ring) (fun e => hne (by rw [← e]; ring)) h
        interval_cases i
        · exact .inl (by rw [e]; ring)
        · exact .inr (.inl (by rw [e]; ring))
        · exact .inr (.inr (by rw [e]; ring))
      · rintro (h | h | h)
        · rw [← h]
        · rw [← h]; linear_combination (-w ^ 3) * hu
        · rw [← h]; linear_combination (w ^ 3) * (u ^ 3 - 1) * hu
  · cases h
    refine ⟨by decide, by simp, ?_, ?_, ?_⟩
    · intro h0; simp [occ, occL, pow, h0]
    · intro σ hn; simp [root_undef hn, prod_undef1]
    · intro σ v hv z
      have hr := val_root hv 4 (by norm_num)
      have hw := root_pow v 4 (by norm_num)
      push_cast at hr hw
      generalize v ^ ((4 : ℂ)⁻¹) = w at hr hw
      have h1 := val_two (val_neg1 (O := O) (σ := σ)) hr
      have h2 := val_two (val_negI (O := O) (σ := σ)) hr
      have h3 := val_two (val_I (O := O) (σ := σ)) hr
      simp only [List.mem_cons, List.not_mem_nil, or_false, exists_eq_or_imp, exists_eq_left, h1, h2, h3, hr, Option.some.injEq]
      show z ^ 4 = v ↔ _
      rw [← hw]
      have hI : Complex.I ^ 2 = -1 := Complex.I_sq
      constructor
      · intro h
        have : (z + w) * ((z + Complex.I * w) * ((z - Complex.I * w) * (z - w))) = 0 := by linear_combination h - (z ^ 2 - w ^ 2) * w ^ 2 * hI
        rcases mul_eq_zero.1 this with h | h
        · exact .inl (by linear_combination -h)
        rcases mul_eq_zero.1 h with h | h
        · exact .inr (.inl (by linear_combination -h))
        rcases mul_eq_zero.1 h with h | h
        · exact .inr (.inr (.inl (by linear_combination -h)))
        · exact .inr (.inr (.inr (by linear_combination -h)))
      · rintro (h | h | h | h)
        · rw [← h]; ring
        · rw [← h]; linear_combination (w ^ 4) * (Complex.I ^ 2 - 1) * hI
        · rw [← h]; linear_combination (w ^ 4) * (Complex.I ^ 2 - 1) * hI
        · rw [← h]
  · cases h
    refine ⟨by decide, by simp, ?_, ?_, ?_⟩
    · intro h0; simp [occ, occL, pow, root1, h0]
    · intro σ hn; simp [root_undef hn, prod_undef1, prod_undef2]
    · intro σ v hv z
      have hr := val_root hv 5 (by norm_num)
      have hw := root_pow v 5 (by norm_num)
      have hu := root_pow (-1) 5 (by norm_num)
      have hne := root_ne 5 (by norm_num)
      have r1 := val_root1 (O := O) (σ := σ) 1 5 (by norm_num)
      have r2 := val_root1 (O := O) (σ := σ) 2 5 (by norm_num)
      have r3 := val_root1 (O := O) (σ := σ) 3 5 (by norm_num)
      have r4 := val_root1 (O := O) (σ := σ) 4 5 (by norm_num)
      push_cast at hr hw hu hne r1 r2 r3 r4
      simp only [zpow_one, zpow_ofNat] at r1 r2 r3 r4
      generalize v ^ ((5 : ℂ)⁻¹) = w at hr hw
      generalize (-1 : ℂ) ^ ((5 : ℂ)⁻¹) = u at hu hne r1 r2 r3 r4
      have h1 := val_three (val_neg1 (O := O) (σ := σ)) r1 hr
      have h2 := val_two r2 hr
      have h3 := val_three (val_neg1 (O := O) (σ := σ)) r3 hr
      have h4 := val_two r4 hr
      simp only [List.mem_cons, List.not_mem_nil, or_false, exists_eq_or_imp, exists_eq_left, h1, h2, h3, h4, hr, Option.some.injEq]
      show z ^ 5 = v ↔ _
      rw [← hw]
      constructor
      · intro h
        obtain ⟨i, hi, e⟩ := prime_roots 5 Nat.prime_five (u := -u) (by rw [neg_pow, hu]; ring) (fun e => hne (by rw [← e]; ring)) h
        interval_cases i
        · exact .inl (by rw [e]; ring)
        · exact .inr (.inl (by rw [e]; ring))
        · exact .inr (.inr (.inl (by rw [e]; ring)))
        · exact .inr (.inr (.inr (.inl (by rw [e]; ring))))
        · exact .inr (.inr (.inr (.inr (by rw [e]; ring))))
      · rintro (h | h | h | h | h)
        · rw [← h]
        · rw [← h]; linear_combination (-w ^ 5) * hu
        · rw [← h]; linear_combination (w ^ 5) * (u ^ 5 - 1) * hu
        · rw [← h]; linear_combination (-w ^ 5) * (u ^ 10 - u ^ 5 + 1) * hu
        · rw [← h]; linear_combination (w ^ 5) * (u ^ 15 - u ^ 10 + u ^ 5 - 1) * hu
  · cases h

mutual
theorem within_of_occ : ∀ e : Ex, occ x e ≠ 0 → Within (.sym x) e
  | .sym s, h => by
    have : s = x := by by_contra hn; exact h (by simp [occ, hn])
    rw [this]; exact .refl
  | .expr [], h => absurd rfl h
  | .expr (hd :: args), h => by
    obtain ⟨a, ha, hw⟩ := within_of_occL args (by simpa [occ] using h)
    exact .arg ha hw
  | .int _, h => absurd rfl h
  | .rat _ _, h => absurd rfl h
  | .flt _, h => absurd rfl h
  | .str _, h => absurd rfl h
  | .cplx _ _, h => absurd rfl h
theorem within_of_occL : ∀ l : List Ex, occL x l ≠ 0 → ∃ a ∈ l, Within (.sym x) a
  | [], h => absurd rfl h
  | a :: as, h => by
    by_cases ha : occ x a = 0
    · obtain ⟨b, hb, hw⟩ := within_of_occL as (by simpa [occL, ha] using h)
      exact ⟨b, by simp [hb], hw⟩
    · exact ⟨a, by simp, within_of_occ a ha⟩
end

theorem NoRadical.part {h a : Ex} {args : List Ex} (hr : NoRadical x (.expr (h :: args))) (ha : a ∈ args) : NoRadical x a :=
  fun b n hw => hr b n (.arg ha hw)

/-- What one step of `applyInverse` achieves. -/
structure StepRight (O : Ex → Option ℂ) (x : String) (lhs rhs : Ex) (l : List (Ex × Ex)) : Prop where
  ne : l ≠ []
  once : ∀ e ∈ l, occ x e.1 = 1 ∧ occ x e.2 = 0
  radical : ∀ e ∈ l, NoRadical x e.1
  defined : ∀ e ∈ l, ∀ σ, val O σ rhs = none → val O σ e.2 = none
  sound : ∀ e ∈ l, ∀ σ z, Solves O σ x z e.1 e.2 → Solves O σ x z lhs rhs
  complete : ∀ σ z, (∀ e ∈ l, val O σ e.2 ≠ none) → Solves O σ x z lhs rhs → ∃ e ∈ l, Solves O σ x z e.1 e.2

theorem not_eq_filter (args : List Ex) : args.filter (fun a => !(occ x a != 0)) = args.filter (fun a => occ x a == 0) := by
  apply List.filter_congr; intro a _; exact Bool.not_not _

theorem step_plus (O : Ex → Option ℂ) {rhs : Ex} {args : List Ex} (h1 : occL x args = 1) (h2 : occ x rhs = 0) (hr : NoRadical x (.expr (S "Plus" :: args))) :
    StepRight O x (.expr (S "Plus" :: args)) rhs
      [(plusOf (args.filter (fun a => occ x a != 0)), .expr [S "Plus", rhs, .expr [S "Times", .int (-1), plusOf (args.filter (fun a => occ x a == 0))]])] := by
  obtain ⟨a, hf, ha, h0⟩ := split_one h1
  have hmem : a ∈ args := by have : a ∈ args.filter (fun a => occ x a != 0) := by rw [hf]; simp
                             exact (List.mem_filter.1 this).1
  have e1 : plusOf (args.filter (fun a => occ x a != 0)) = a := by rw [hf]; rfl
  rw [e1]
  generalize hc : args.filter (fun a => occ x a == 0) = cs at h0
  have hocc : occ x (.expr [S "Plus", rhs, .expr [S "Times", .int (-1), plusOf cs]]) = 0 := by simp [occ, occL, h2, occ_plusOf, h0]
  have hsplit : ∀ σ z, sumVal O (setTo σ x z) args = (val O (setTo σ x z) a).bind (fun v => (sumVal O σ cs).map (fun w => v + w)) := by
    intro σ z
    rw [sum_split (fun a => occ x a != 0), not_eq_filter, hc, hf, sum_free z cs h0, sumVal, sumVal]
    cases val O (setTo σ x z) a <;> simp
  have hval : ∀ σ, val O σ (.expr [S "Plus", rhs, .expr [S "Times", .int (-1), plusOf cs]]) = (val O σ rhs).bind (fun v => (sumVal O σ cs).map (fun w => v - w)) := by
    intro σ
    rw [val_plus, sumVal, sumVal, sumVal, val_times, prodVal, prodVal, prodVal, val_neg1, val_plusOf]
    cases val O σ rhs <;> cases sumVal O σ cs <;> simp [sub_eq_add_neg]
  refine ⟨by simp, ?_, ?_, ?_, ?_, ?_⟩
  · simp only [List.mem_singleton, forall_eq]; exact ⟨ha, hocc⟩
  · simp only [List.mem_singleton, forall_eq]; exact hr.part hmem
  · simp only [List.mem_singleton, forall_eq]; intro σ hn; rw [hval, hn]; rfl
  · simp only [List.mem_singleton, forall_eq]
    rintro σ z ⟨v, hv1, hv2⟩
    rw [val_free z _ hocc, hval] at hv2
    unfold Solves
    rw [val_plus, hsplit, val_free z _ h2, hv1]
    cases hR : val O σ rhs <;> cases hS : sumVal O σ cs <;> simp [hR, hS] at hv2 ⊢
    rw [← hv2]; ring
  · rintro σ z hd ⟨v, hv1, hv2⟩
    rw [val_plus, hsplit] at hv1
    rw [val_free z _ h2] at hv2
    refine ⟨_, List.mem_singleton.2 rfl, ?_⟩
    unfold Solves
    simp only
    rw [val_free z _ hocc, hval, hv2]
    cases hA : val O (setTo σ x z) a <;> cases hS : sumVal O σ cs <;> simp [hA, hS] at hv1 ⊢
    rw [← hv1]; ring

theorem step_times (O : Ex → Option ℂ) {rhs : Ex} {args : List Ex} (h1 : occL x args = 1) (h2 : occ x rhs = 0) (hr : NoRadical x (.expr (S "Times" :: args))) :
    StepRight O x (.expr (S "Times" :: args)) rhs
      [(timesOf (args.filter (fun a => occ x a != 0)), .expr [S "Times", rhs, pow (timesOf (args.filter (fun a => occ x a == 0))) (.int (-1))])] := by
  obtain ⟨a, hf, ha, h0⟩ := split_one h1
  have hmem : a ∈ args := by have : a ∈ args.filter (fun a => occ x a != 0) := by rw [hf]; simp
                             exact (List.mem_filter.1 this).1
  have e1 : timesOf (args.filter (fun a => occ x a != 0)) = a := by rw [hf]; rfl
  rw [e1]
  generalize hc : args.filter (fun a => occ x a == 0) = cs at h0
  have hocc : occ x (.expr [S "Times", rhs, pow (timesOf cs) (.int (-1))]) = 0 := by simp [occ, occL, pow, h2, occ_timesOf, h0]
  have hsplit : ∀ σ z, prodVal O (setTo σ x z) args = (val O (setTo σ x z) a).bind (fun v => (prodVal O σ cs).map (fun w => v * w)) := by
    intro σ z
    rw [prod_split (fun a => occ x a != 0), not_eq_filter, hc, hf, prod_free z cs h0, prodVal, prodVal]
    cases val O (setTo σ x z) a <;> simp
  have hval : ∀ σ, val O σ (.expr [S "Times", rhs, pow (timesOf cs) (.int (-1))]) =
      (val O σ rhs).bind (fun v => (prodVal O σ cs).bind (fun w => if w = 0 then none else some (v * w⁻¹))) := by
    intro σ
    have hi : val O σ (.int (-1)) = some (((-1 : ℤ)) : ℂ) := by rw [val]
    rw [val_times, prodVal, prodVal, prodVal, val_pow, val_timesOf, hi]
    cases val O σ rhs <;> cases prodVal O σ cs <;> simp only [Option.bind_none, Option.bind_some, powDef_inv] <;> first | rfl | (split <;> simp)
  refine ⟨by simp, ?_, ?_, ?_, ?_, ?_⟩
  · simp only [List.mem_singleton, forall_eq]; exact ⟨ha, hocc⟩
  · simp only [List.mem_singleton, forall_eq]; exact hr.part hmem
  · simp only [List.mem_singleton, forall_eq]; intro σ hn; rw [hval, hn]; rfl
  · simp only [List.mem_singleton, forall_eq]
    rintro σ z ⟨v, hv1, hv2⟩
    rw [val_free z _ hocc, hval] at hv2
    unfold Solves
    rw [val_times, hsplit, val_free z _ h2, hv1]
    cases hR : val O σ rhs <;> cases hS : prodVal O σ cs <;> simp [hR, hS] at hv2 ⊢
    obtain ⟨hne, hv2⟩ := hv2
    rw [← hv2]; field_simp
  · rintro σ z hd ⟨v, hv1, hv2⟩
    rw [val_times, hsplit] at hv1
    rw [val_free z _ h2] at hv2
    have hd := hd _ (List.mem_singleton.2 rfl)
    simp only at hd
    rw [hval, hv2] at hd
    refine ⟨_, List.mem_singleton.2 rfl, ?_⟩
    unfold Solves
    simp only
    rw [val_free z _ hocc, hval, hv2]
    cases hA : val O (setTo σ x z) a <;> cases hS : prodVal O σ cs <;> simp [hA, hS] at hv1 hd ⊢
    refine ⟨hd, ?_⟩
    rw [← hv1]; field_simp

theorem val_int_pow {b : Ex} (p : ℕ) (hp : p ≠ 0) : val O σ (pow b (.int p)) = (val O σ b).map (fun v => v ^ p) := by
  have : val O σ (.int p) = some (((p : ℤ)) : ℂ) := by rw [val]
  rw [val_pow, this]
  cases val O σ b
  · rfl
  · simp only [Option.bind_some, Option.map_some]; exact powDef_nat _ p hp

theorem step_inv (O : Ex → Option ℂ) {b rhs : Ex} (h1 : occ x b = 1) (h2 : occ x rhs = 0) (hr : NoRadical x b) :
    StepRight O x (pow b (.int (-1))) rhs [(b, pow rhs (.int (-1)))] := by
  have hi : ∀ σ, val O σ (.int (-1)) = some (((-1 : ℤ)) : ℂ) := fun σ => by rw [val]
  have hocc : occ x (pow rhs (.int (-1))) = 0 := by simp [occ, occL, pow, h2]
  have hv : ∀ (σ : String → ℂ) e, val O σ (pow e (.int (-1))) = (val O σ e).bind (fun v => if v = 0 then none else some v⁻¹) := by
    intro σ e
    rw [val_pow, hi]
    cases val O σ e <;> simp only [Option.bind_none, Option.bind_some, powDef_inv]
  refine ⟨by simp, ?_, ?_, ?_, ?_, ?_⟩
  · simp only [List.mem_singleton, forall_eq]; exact ⟨h1, hocc⟩
  · simp only [List.mem_singleton, forall_eq]; exact hr
  · simp only [List.mem_singleton, forall_eq]; intro σ hn; rw [hv, hn]; rfl
  · simp only [List.mem_singleton, forall_eq]
    rintro σ z ⟨v, hv1, hv2⟩
    rw [val_free z _ hocc, hv] at hv2
    unfold Solves
    rw [hv, val_free z _ h2, hv1]
    cases hR : val O σ rhs <;> simp [hR] at hv2 ⊢
    obtain ⟨hne, rfl⟩ := hv2
    exact ⟨by simpa using hne, by simp⟩
  · rintro σ z hd ⟨v, hv1, hv2⟩
    rw [hv] at hv1
    rw [val_free z _ h2] at hv2
    refine ⟨_, List.mem_singleton.2 rfl, ?_⟩
    unfold Solves
    simp only
    rw [val_free z _ hocc, hv, hv2]
    cases hA : val O (setTo σ x z) b <;> simp [hA] at hv1 ⊢
    obtain ⟨hne, rfl⟩ := hv1
    exact ⟨by simpa using hne, by simp⟩

theorem step_roots (O : Ex → Option ℂ) {b rhs : Ex} {p : Int} {l : List Ex} (hl : rootsOf rhs p = some l) (h1 : occ x b = 1) (h2 : occ x rhs = 0) (hr : NoRadical x b) :
    StepRight O x (pow b (.int p)) rhs (l.map (fun r => (b, r))) := by
  have R := rootsRight O x rhs p l hl
  have hpos := R.pos
  have hp : p = ((p.toNat : ℕ) : ℤ) := by omega
  generalize p.toNat = n at *
  subst hp
  refine ⟨by simpa using R.ne, ?_, ?_, ?_, ?_, ?_⟩
  · intro e he
    obtain ⟨r, hr, rfl⟩ := List.mem_map.1 he
    exact ⟨h1, R.free h2 r hr⟩
  · intro e he
    obtain ⟨r, -, rfl⟩ := List.mem_map.1 he
    exact hr
  · intro e he σ hn
    obtain ⟨r, hr, rfl⟩ := List.mem_map.1 he
    exact R.undef σ hn r hr
  · rintro e he σ z ⟨v, hv1, hv2⟩
    obtain ⟨r, hr, rfl⟩ := List.mem_map.1 he
    rw [val_free z _ (R.free h2 r hr)] at hv2
    have hv1 : val O (setTo σ x z) b = some v := hv1
    have hv2 : val O σ r = some v := hv2
    unfold Solves
    rw [val_int_pow n hpos, val_free z _ h2, hv1]
    cases hR : val O σ rhs with
    | none => rw [R.undef σ hR r hr] at hv2; cases hv2
    | some w => exact ⟨w, by simpa using (R.roots σ w hR v).2 ⟨r, hr, hv2⟩, rfl⟩
  · rintro σ z hd ⟨v, hv1, hv2⟩
    rw [val_int_pow n hpos] at hv1
    rw [val_free z _ h2] at hv2
    cases hA : val O (setTo σ x z) b with
    | none => simp [hA] at hv1
    | some w =>
      simp [hA] at hv1
      obtain ⟨r, hr, hw⟩ := (R.roots σ v hv2 w).1 hv1
      exact ⟨(b, r), List.mem_map.2 ⟨r, hr, rfl⟩, w, hA, by rw [val_free z _ (R.free h2 r hr)]; exact hw⟩

theorem step_right (O : Ex → Option ℂ) {lhs rhs : Ex} {l : List (Ex × Ex)} (h : applyInverse x lhs rhs = some l) (h1 : occ x lhs = 1) (h2 : occ x rhs = 0) (hr : NoRadical x lhs) :
    StepRight O x lhs rhs l := by
  unfold applyInverse at h
  split at h
  · cases h; exact step_plus O (by simpa [occ] using h1) h2 hr
  · cases h; exact step_times O (by simpa [occ] using h1) h2 hr
  · rename_i b p
    have hb : occ x b = 1 := by simpa [occ, occL] using h1
    rw [if_neg (by omega)] at h
    have hrb : NoRadical x b := hr.part (h := .sym "System`Power") (by simp)
    by_cases hp : p = -1
    · rw [if_pos hp] at h; cases h; subst hp; exact step_inv O hb h2 hrb
    · rw [if_neg hp] at h
      cases hl : rootsOf rhs p with
      | none => rw [hl] at h; cases h
      | some m => rw [hl] at h; cases h; exact step_roots O hl hb h2 hrb
  · rename_i b n
    have hb : occ x b = 1 := by simpa [occ, occL] using h1
    exact absurd (within_of_occ b (by omega)) (hr b n .refl)
  · cases h

/-- What isolation achieves. -/
structure IsoRight (O : Ex → Option ℂ) (x : String) (lhs rhs : Ex) (sols : List Ex) : Prop where
  free : ∀ s ∈ sols, occ x s = 0
  ne : sols ≠ []
  defined : occ x rhs = 0 → ∀ s ∈ sols, ∀ σ, val O σ rhs = none → val O σ s = none
  sound : ∀ s ∈ sols, ∀ σ z, val O σ s = some z → Solves O σ x z lhs rhs
  complete : ∀ σ z, (∀ s ∈ sols, val O σ s ≠ none) → Solves O σ x z lhs rhs → ∃ s ∈ sols, val O σ s = some z

theorem isolate_right (O : Ex → Option ℂ) : ∀ (n : Nat) (lhs rhs : Ex) (sols : List Ex), isolate n x lhs rhs = some sols → NoRadical x lhs → NoRadical x rhs →
    (lhs = .sym x → occ x rhs = 0) → IsoRight O x lhs rhs sols
  | 0, _, _, _, h, _, _, _ => by rw [isolate] at h; cases h
  | n + 1, lhs, rhs, sols, h, hl, hr, h0 => by
    rw [isolate] at h
    by_cases c1 : lhs = .sym x
    · rw [if_pos c1] at h
      cases h
      subst c1
      have h0 := h0 rfl
      have hx : ∀ σ z, val O (setTo σ x z) (.sym x) = some z := by intro σ z; rw [val]; simp [setTo]
      refine ⟨by simpa using h0, by simp, ?_, ?_, ?_⟩
      · intro _; simp only [List.mem_singleton, forall_eq]; exact fun σ h => h
      · simp only [List.mem_singleton, forall_eq]
        intro σ z hv
        exact ⟨z, hx σ z, by rw [val_free z _ h0]; exact hv⟩
      · rintro σ z - ⟨v, hv1, hv2⟩
        rw [hx] at hv1
        cases hv1
        rw [val_free z _ h0] at hv2
        exact ⟨rhs, by simp, hv2⟩
    rw [if_neg c1] at h
    by_cases c2 : occ x rhs = 1 ∧ occ x lhs = 0
    · rw [if_pos c2] at h
      have ih := isolate_right O n rhs lhs sols h hr hl (fun _ => c2.2)
      have hs : ∀ σ z a b, Solves O σ x z a b → Solves O σ x z b a := fun σ z a b ⟨v, h1, h2⟩ => ⟨v, h2, h1⟩
      exact ⟨ih.free, ih.ne, fun h => absurd h (by omega), fun s hs' σ z hv => hs _ _ _ _ (ih.sound s hs' σ z hv), fun σ z hd hv => ih.complete σ z hd (hs _ _ _ _ hv)⟩
    rw [if_neg c2] at h
    by_cases c3 : occ x lhs = 1 ∧ occ x rhs = 0
    · rw [if_neg (by simpa using c3)] at h
      cases hap : applyInverse x lhs rhs with
      | none => rw [hap] at h; cases h
      | some l =>
        rw [hap] at h
        have St := step_right O hap c3.1 c3.2 hl
        have key : ∀ (m : List (Ex × Ex)) (ss : List Ex), (∀ e ∈ m, e ∈ l) → joinAll (isolate n x) m = some ss →
            (∀ s ∈ ss, ∃ e ∈ m, ∃ t, IsoRight O x e.1 e.2 t ∧ s ∈ t) ∧ (∀ e ∈ m, ∃ t, IsoRight O x e.1 e.2 t ∧ ∀ s ∈ t, s ∈ ss) := by
          intro m
          induction m with
          | nil => intro ss _ hh; rw [joinAll] at hh; cases hh; simp
          | cons e m ih =>
            intro ss hm hh
            rw [joinAll] at hh
            cases ha : isolate n x e.1 e.2 with
            | none => rw [ha] at hh; cases hh
            | some t =>
              cases hb : joinAll (isolate n x) m with
              | none => rw [ha, hb] at hh; cases hh
              | some u =>
                rw [ha, hb] at hh
                cases hh
                have he := St.once e (hm e (by simp))
                have hrad : NoRadical x e.2 := by
                  intro b k hw hb
                  have hz : ∀ {u v : Ex}, Within u v → Within (.sym x) u → occ x v ≠ 0 := by
                    intro u v huv
                    induction huv with
                    | refl =>
                      intro hx
                      induction hx with
                      | refl => simp [occ]
                      | @arg a h args hmem _ ih =>
                        have : ∀ l : List Ex, a ∈ l → occL x l ≠ 0 := by
                          intro l
                          induction l with
                          | nil => simp
                          | cons c l ihl =>
                            intro hm
                            simp only [List.mem_cons] at hm
                            simp only [occL]
                            rcases hm with rfl | hm
                            · omega
                            · have := ihl hm; omega
                        simpa [occ] using this args hmem
                    | @arg a h args hmem _ ih =>
                      intro hx
                      have hne := ih hx
                      have : ∀ l : List Ex, a ∈ l → occL x l ≠ 0 := by
                        intro l
                        induction l with
                        | nil => simp
                        | cons c l ihl =>
                          intro hm
                          simp only [List.mem_cons] at hm
                          simp only [occL]
                          rcases hm with rfl | hm
                          · omega
                          · have := ihl hm; omega
                      simpa [occ] using this args hmem
                  exact hz hw (.arg (by simp) hb) he.2
                have I := isolate_right O n e.1 e.2 t ha (St.radical e (hm e (by simp))) hrad (fun _ => he.2)
                obtain ⟨i1, i2⟩ := ih u (fun e he => hm e (by simp [he])) hb
                constructor
                · intro s hs
                  rcases List.mem_append.1 hs with hs | hs
                  · exact ⟨e, by simp, t, I, hs⟩
                  · obtain ⟨e', he', t', h1, h2⟩ := i1 s hs
                    exact ⟨e', by simp [he'], t', h1, h2⟩
                · intro e' he'
                  rcases List.mem_cons.1 he' with rfl | he'
                  · exact ⟨t, I, fun s hs => List.mem_append_left _ hs⟩
                  · obtain ⟨t', h1, h2⟩ := i2 e' he'
                    exact ⟨t', h1, fun s hs => List.mem_append_right _ (h2 s hs)⟩
        obtain ⟨k1, k2⟩ := key l sols (fun _ h => h) h
        refine ⟨?_, ?_, ?_, ?_, ?_⟩
        · intro s hs
          obtain ⟨e, -, t, I, hst⟩ := k1 s hs
          exact I.free s hst
        · intro he
          obtain ⟨e, hmem⟩ := List.exists_mem_of_ne_nil _ St.ne
          obtain ⟨t, I, hsub⟩ := k2 e hmem
          obtain ⟨s, hs⟩ := List.exists_mem_of_ne_nil _ I.ne
          rw [he] at hsub
          exact absurd (hsub s hs) (by simp)
        · intro _ s hs σ hn
          obtain ⟨e, he, t, I, hst⟩ := k1 s hs
          exact I.defined (St.once e he).2 s hst σ (St.defined e he σ hn)
        · intro s hs σ z hv
          obtain ⟨e, he, t, I, hst⟩ := k1 s hs
          exact St.sound e he σ z (I.sound s hst σ z hv)
        · intro σ z hd hv
          have hde : ∀ e ∈ l, val O σ e.2 ≠ none := by
            intro e he hn
            obtain ⟨t, I, hsub⟩ := k2 e he
            obtain ⟨s, hs⟩ := List.exists_mem_of_ne_nil _ I.ne
            exact hd s (hsub s hs) (I.defined (St.once e he).2 s hs σ hn)
          obtain ⟨e, he, hse⟩ := St.complete σ z hde hv
          obtain ⟨t, I, hsub⟩ := k2 e he
          obtain ⟨s, hs, hsv⟩ := I.complete σ z (fun s hs => hd s (hsub s hs)) hse
          exact ⟨s, hsub s hs, hsv⟩
    · rw [if_pos (by simpa using c3)] at h; cases h

theorem occ_zero {x : String} {e : Ex} (h : ¬ Within (.sym x) e) : occ x e = 0 := by
  by_contra hn; exact h (within_of_occ e hn)

end Iso

/-- C127. Isolating a variable is sound: every right side that has a value satisfies the equation when it is put in for the variable, whatever the other symbols stand for; no right side has the variable in it
(up to `countVar`). -/
theorem C127_sound_partial (O : Ex → Option ℂ) (n : Nat) (x : String) (lhs rhs : Ex) (sols : List Ex) (h : isolate n x lhs rhs = some sols) (hl : NoRadical x lhs) (hr : NoRadical x rhs)
    (hx : lhs = .sym x → ¬ Within (.sym x) rhs) :
    (∀ s ∈ sols, occ x s = 0) ∧ ∀ (σ : String → ℂ) (z : ℂ), ∀ s ∈ sols, val O σ s = some z → Solves O σ x z lhs rhs := by
  have I := isolate_right O n lhs rhs sols h hl hr (fun e => occ_zero (hx e))
  exact ⟨I.free, fun σ z s hs hv => I.sound s hs σ z hv⟩

/-- C127. Isolating a variable is complete: if all the right sides have values, then these are exactly the complex solutions of the equation. -/
theorem C127_complete_partial (O : Ex → Option ℂ) (n : Nat) (x : String) (lhs rhs : Ex) (sols : List Ex) (h : isolate n x lhs rhs = some sols) (hl : NoRadical x lhs) (hr : NoRadical x rhs)
    (hx : lhs = .sym x → ¬ Within (.sym x) rhs) (σ : String → ℂ) (hd : ∀ s ∈ sols, val O σ s ≠ none) (z : ℂ) :
    Solves O σ x z lhs rhs ↔ ∃ s ∈ sols, val O σ s = some z := by
  have I := isolate_right O n lhs rhs sols h hl hr (fun e => occ_zero (hx e))
  exact ⟨I.complete σ z hd, fun ⟨s, hs, hv⟩ => I.sound s hs σ z hv⟩

namespace Iso
variable {x : String}

theorem Within.trans {u v w : Ex} (h1 : Within u v) (h2 : Within v w) : Within u w := by
  induction h2 with
  | refl => exact h1
  | arg hm _ ih => exact .arg hm ih

theorem occL_append (l m : List Ex) : occL x (l ++ m) = occL x l + occL x m := by
  induction l with
  | nil => simp [occL]
  | cons a l ih => simp [occL, ih]; omega

theorem occL_zero : ∀ l : List Ex, (∀ b ∈ l, ¬ Within (.sym x) b) → occL x l = 0
  | [], _ => rfl
  | a :: l, h => by rw [occL, occ_zero (h a (by simp)), occL_zero l (fun b hb => h b (by simp [hb]))]

theorem occL_middle {a : Ex} {pre post : List Ex} (h1 : occ x a = 1) (h : ∀ b ∈ pre ++ post, ¬ Within (.sym x) b) : occL x (pre ++ a :: post) = 1 := by
  rw [occL_append, occL, occL_zero pre (fun b hb => h b (by simp [hb])), occL_zero post (fun b hb => h b (by simp [hb])), h1]

theorem Simple.once {e : Ex} (h : Simple x e) : occ x e = 1 := by
  induction h with
  | var => simp [occ]
  | sum _ ho ih => simpa [occ] using occL_middle ih ho
  | prod _ ho ih => simpa [occ] using occL_middle ih ho
  | power _ _ ih => simpa [occ, occL] using ih

theorem Simple.radical {e : Ex} (h : Simple x e) : NoRadical x e := by
  have mid : ∀ {a hd : Ex} {pre post : List Ex}, NoRadical x a → (∀ b ∈ pre ++ post, ¬ Within (.sym x) b) → (∀ b n, Ex.expr [S "Power", b, .rat 1 n] ≠ .expr (hd :: (pre ++ a :: post))) →
      NoRadical x (.expr (hd :: (pre ++ a :: post))) := by
    intro a hd pre post ih ho hne b n hw hx
    cases hwe : Ex.expr (hd :: (pre ++ a :: post)) with
    | expr ps =>
      rw [hwe] at hw
      cases hw with
      | refl => exact hne b n hwe.symm
      | @arg c h args hm hw =>
        injection hwe with hwe
        injection hwe with h1 h2
        rw [← h2] at hm
        have hm : c = a ∨ c ∈ pre ++ post := by simp only [List.mem_append, List.mem_cons] at hm ⊢; tauto
        rcases hm with rfl | hm
        · exact ih b n hw hx
        · exact ho c hm (Within.trans (.arg (by simp) hx) hw)
    | _ => cases hwe
  induction h with
  | var => intro b n hw; cases hw
  | sum _ ho ih => exact mid ih ho (by intro b n h; injection h with h; injection h with h; exact absurd h (by decide))
  | prod _ ho ih => exact mid ih ho (by intro b n h; injection h with h; injection h with h; exact absurd h (by decide))
  | power _ hp ih =>
    intro b n hw hx
    cases hw with
    | arg hm hw =>
      simp only [List.mem_cons, List.not_mem_nil, or_false] at hm
      rcases hm with rfl | rfl
      · exact ih b n hw hx
      · cases hw

theorem filter_middle {a : Ex} {pre post : List Ex} (h1 : occ x a = 1) (h : ∀ b ∈ pre ++ post, ¬ Within (.sym x) b) :
    (pre ++ a :: post).filter (fun a => occ x a != 0) = [a] ∧ occL x ((pre ++ a :: post).filter (fun a => occ x a == 0)) = 0 := by
  obtain ⟨a', hf, -, h0⟩ := split_one (occL_middle h1 h)
  have : a ∈ (pre ++ a :: post).filter (fun a => occ x a != 0) := List.mem_filter.2 ⟨by simp, by simp [h1]⟩
  rw [hf] at this
  obtain rfl := List.mem_singleton.1 this
  exact ⟨hf, h0⟩

theorem occ_minus {rhs : Ex} (h : occ x rhs = 0) (cs : List Ex) (hc : occL x cs = 0) : occ x (.expr [S "Plus", rhs, .expr [S "Times", .int (-1), plusOf cs]]) = 0 := by
  simp [occ, occL, h, occ_plusOf, hc]
theorem occ_over {rhs : Ex} (h : occ x rhs = 0) (cs : List Ex) (hc : occL x cs = 0) : occ x (.expr [S "Times", rhs, pow (timesOf cs) (.int (-1))]) = 0 := by
  simp [occ, occL, pow, h, occ_timesOf, hc]

theorem joinAll_some {f : Ex → Ex → Option (List Ex)} {b : Ex} : ∀ {l : List Ex}, (∀ r ∈ l, ∃ t, f b r = some t) → ∃ t, joinAll f (l.map (fun r => (b, r))) = some t
  | [], _ => ⟨[], rfl⟩
  | r :: l, h => by
    obtain ⟨t, ht⟩ := h r (by simp)
    obtain ⟨u, hu⟩ := joinAll_some (f := f) (b := b) (l := l) (fun r hr => h r (by simp [hr]))
    exact ⟨t ++ u, by rw [List.map_cons, joinAll]; simp only [ht, hu, Option.bind_some, Option.map_some]⟩

theorem isolate_finds {lhs : Ex} (h : Simple x lhs) : ∃ N, ∀ n, N ≤ n → ∀ rhs, occ x rhs = 0 → ∃ sols, isolate n x lhs rhs = some sols := by
  have unf : ∀ {n : Nat} {ps : List Ex} {rhs : Ex} {l : List (Ex × Ex)}, occ x (.expr ps) = 1 → occ x rhs = 0 → applyInverse x (.expr ps) rhs = some l →
      isolate (n + 1) x (.expr ps) rhs = joinAll (isolate n x) l := by
    intro n ps rhs l h1 h2 h3
    rw [isolate, if_neg (by simp), if_neg (by omega), if_neg (by simp [h1, h2]), h3]
  induction h with
  | var => exact ⟨1, fun n hn rhs _ => by obtain ⟨m, rfl⟩ : ∃ m, n = m + 1 := ⟨n - 1, by omega⟩; exact ⟨[rhs], by rw [isolate, if_pos rfl]⟩⟩
  | @sum a pre post ha ho ih =>
    obtain ⟨N, ih⟩ := ih
    obtain ⟨f1, f2⟩ := filter_middle ha.once ho
    refine ⟨N + 1, fun n hn rhs h0 => ?_⟩
    obtain ⟨m, rfl⟩ : ∃ m, n = m + 1 := ⟨n - 1, by omega⟩
    have e : applyInverse x (.expr (S "Plus" :: (pre ++ a :: post))) rhs =
        some ([Ex.expr [S "Plus", rhs, .expr [S "Times", .int (-1), plusOf ((pre ++ a :: post).filter (fun a => occ x a == 0))]]].map (fun r => (a, r))) := by
      have : plusOf [a] = a := rfl
      simp only [applyInverse, S, String.reduceAppend, f1, this, List.map_cons, List.map_nil]
    rw [unf (by simpa [occ] using occL_middle ha.once ho) h0 e]
    refine joinAll_some fun r hr => ?_
    rw [List.mem_singleton] at hr
    subst hr
    exact ih m (by omega) _ (occ_minus h0 _ f2)
  | @prod a pre post ha ho ih =>
    obtain ⟨N, ih⟩ := ih
    obtain ⟨f1, f2⟩ := filter_middle ha.once ho
    refine ⟨N + 1, fun n hn rhs h0 => ?_⟩
    obtain ⟨m, rfl⟩ : ∃ m, n = m + 1 := ⟨n - 1, by omega⟩
    have e : applyInverse x (.expr (S "Times" :: (pre ++ a :: post))) rhs =
        some ([Ex.expr [S "Times", rhs, pow (timesOf ((pre ++ a :: post).filter (fun a => occ x a == 0))) (.int (-1))]].map (fun r => (a, r))) := by
      have : timesOf [a] = a := rfl
      simp only [applyInverse, S, String.reduceAppend, f1, this, List.map_cons, List.map_nil]
    rw [unf (by simpa [occ] using occL_middle ha.once ho) h0 e]
    refine joinAll_some fun r hr => ?_
    rw [List.mem_singleton] at hr
    subst hr
    exact ih m (by omega) _ (occ_over h0 _ f2)
  | @power b p hb hp ih =>
    obtain ⟨N, ih⟩ := ih
    refine ⟨N + 1, fun n hn rhs h0 => ?_⟩
    obtain ⟨m, rfl⟩ : ∃ m, n = m + 1 := ⟨n - 1, by omega⟩
    have h1 := hb.once
    have key : ∃ l : List Ex, applyInverse x (.expr [S "Power", b, .int p]) rhs = some (l.map (fun r => (b, r))) ∧ ∀ r ∈ l, occ x r = 0 := by
      have hb0 : ¬ occ x b = 0 := by omega
      simp only [List.mem_cons, List.not_mem_nil, or_false] at hp
      have root : ∀ l, p ≠ -1 → rootsOf rhs p = some l → ∃ l : List Ex, applyInverse x (.expr [S "Power", b, .int p]) rhs = some (l.map (fun r => (b, r))) ∧ ∀ r ∈ l, occ x r = 0 := by
        intro l hne hl
        exact ⟨l, by simp only [applyInverse, S, String.reduceAppend, hb0, hne, if_false, hl, Option.map_some], (rootsRight (fun _ => none) x rhs p l hl).free h0⟩
      rcases hp with rfl | rfl | rfl | rfl | rfl
      · exact ⟨[pow rhs (.int (-1))], by simp [applyInverse, S, hb0], by simp [occ, occL, pow, h0]⟩
      all_goals exact root _ (by decide) rfl
    obtain ⟨l, e, hl⟩ := key
    rw [unf (by simpa [occ, occL] using h1) h0 e]
    exact joinAll_some fun r hr => ih m (by omega) r (hl r hr)

end Iso

/-- C127. If the variable occurs once in the equation, under sums, products, reciprocals and powers with exponents 2 to 5 only, on either side, isolation comes to an end and succeeds; its right sides are solutions as far as they
have values, and if all of them have, they are all solutions there are. -/
theorem C127_simple (O : Ex → Option ℂ) (x : String) (lhs rhs : Ex) (h : Simple x lhs) (hx : ¬ Within (.sym x) rhs) : ∃ N, ∀ n, N ≤ n →
    (∃ sols, isolate n x lhs rhs = some sols ∧ ∀ σ z, (∀ s ∈ sols, val O σ s = some z → Solves O σ x z lhs rhs) ∧
      ((∀ s ∈ sols, val O σ s ≠ none) → (Solves O σ x z lhs rhs ↔ ∃ s ∈ sols, val O σ s = some z))) ∧
    ∃ sols, isolate n x rhs lhs = some sols ∧ ∀ σ z, (∀ s ∈ sols, val O σ s = some z → Solves O σ x z rhs lhs) ∧
      ((∀ s ∈ sols, val O σ s ≠ none) → (Solves O σ x z rhs lhs ↔ ∃ s ∈ sols, val O σ s = some z)) := by
  obtain ⟨N, hN⟩ := isolate_finds h
  have h0 := occ_zero hx
  have hr : NoRadical x rhs := fun b n hw hb => hx (Within.trans (.arg (by simp) hb) hw)
  have hne : rhs ≠ .sym x := fun e => hx (e ▸ .refl)
  refine ⟨N + 1, fun n hn => ⟨?_, ?_⟩⟩
  · obtain ⟨sols, hs⟩ := hN n (by omega) rhs h0
    exact ⟨sols, hs, fun σ z => ⟨(C127_sound_partial O n x lhs rhs sols hs h.radical hr (fun _ => hx)).2 σ z,
      fun hd => C127_complete_partial O n x lhs rhs sols hs h.radical hr (fun _ => hx) σ hd z⟩⟩
  · obtain ⟨m, rfl⟩ : ∃ m, n = m + 1 := ⟨n - 1, by omega⟩
    obtain ⟨sols, hs⟩ := hN m (by omega) rhs h0
    have hs' : isolate (m + 1) x rhs lhs = some sols := by rw [isolate, if_neg hne, if_pos ⟨h.once, h0⟩]; exact hs
    exact ⟨sols, hs', fun σ z => ⟨(C127_sound_partial O _ x rhs lhs sols hs' hr h.radical (fun e => absurd e hne)).2 σ z,
      fun hd => C127_complete_partial O _ x rhs lhs sols hs' hr h.radical (fun e => absurd e hne) σ hd z⟩⟩

/-- C127 (test): `2 (x + 1)^4 = a` is such an equation. -/
example : let x := Ex.sym "x"; Simple "x" (.expr [S "Times", .int 2, .expr [S "Power", .expr [S "Plus", x, .int 1], .int 4]]) ∧ ¬ Within (.sym "x") (.sym "a") :=
  ⟨.prod (pre := [.int 2]) (post := []) (.power (.sum (pre := []) (post := [.int 1]) .var (by simp; intro h; cases h)) (by decide)) (by simp; intro h; cases h), by
    intro h
    generalize hE : Ex.sym "a" = e at h
    cases h with
    | refl => injection hE with hE; exact absurd hE (by decide)
    | arg _ _ => cases hE⟩

/-- C127 (test): `1 + x^3 = a` gives the three roots of `a - 1`, and meets the hypotheses; for `a = 9` they have values. -/
example : let x := Ex.sym "Global`x"; let a := Ex.sym "Global`a"; let lhs := Ex.expr [S "Plus", .int 1, pow x (.int 3)]; let r := Ex.expr [S "Plus", a, .expr [S "Times", .int (-1), .int 1]]
    isolate 5 "Global`x" lhs a = some [pow r (.rat 1 3), .expr [S "Times", .int (-1), root1 1 3, pow r (.rat 1 3)], .expr [S "Times", root1 2 3, pow r (.rat 1 3)]] ∧
    NoRadical "Global`x" lhs ∧ NoRadical "Global`x" a ∧ (lhs = .sym "Global`x" → ¬ Within (.sym "Global`x") a) ∧
    Solves (fun _ => none) (fun _ => 9) "Global`x" 2 lhs a := by
  refine ⟨by decide +kernel, ?_, ?_, ?_, ?_⟩
  · intro b n h
    cases h with
    | arg hm h =>
      simp only [List.mem_cons, List.not_mem_nil, or_false] at hm
      rcases hm with rfl | rfl
      · cases h
      · cases h with
        | arg hm h =>
          simp only [List.mem_cons, List.not_mem_nil, or_false] at hm
          rcases hm with rfl | rfl <;> cases h
  · intro b n h; cases h
  · intro h; cases h
  · refine ⟨9, ?_, by rw [val]; simp [setTo]⟩
    have := val_int_pow (O := fun _ => none) (σ := setTo (fun _ => 9) "Global`x" 2) (b := .sym "Global`x") 3 (by norm_num)
    rw [val_plus, sumVal, sumVal, sumVal, val]
    erw [this]
    rw [val]
    simp [setTo]; norm_num

/-- C127. Both hypotheses are needed. `1/x = 0` has no solution, but isolation gives `1/0`; `a x = b` is solved by everything if `a` and `b` are 0, but isolation gives only `b/a`, which has no value then. -/
theorem C127_zero (O : Ex → Option ℂ) : let x := Ex.sym "x"; let a := Ex.sym "a"; let b := Ex.sym "b"
    (isolate 3 "x" (pow x (.int (-1))) (.int 0) = some [pow (.int 0) (.int (-1))] ∧ ∀ σ z, ¬ Solves O σ "x" z (pow x (.int (-1))) (.int 0)) ∧
    isolate 3 "x" (.expr [S "Times", a, x]) b = some [.expr [S "Times", b, pow a (.int (-1))]] ∧
    val O (fun _ => 0) (.expr [S "Times", b, pow a (.int (-1))]) = none ∧ ∀ z, Solves O (fun _ => 0) "x" z (.expr [S "Times", a, x]) b := by
  have hi : ∀ σ, val O σ (.int (-1)) = some (((-1 : ℤ)) : ℂ) := fun σ => by rw [val]
  refine ⟨⟨by decide +kernel, ?_⟩, by decide +kernel, ?_, ?_⟩
  · rintro σ z ⟨v, h1, h2⟩
    rw [val] at h2
    rw [val_pow, hi, val] at h1
    simp only [Option.bind_some, powDef_inv] at h1
    split at h1
    · cases h1
    · rename_i hne
      simp only [Int.cast_zero, Option.some.injEq] at h1 h2
      rw [← h2] at h1
      exact hne (inv_eq_zero.1 h1)
  · rw [val_times, prodVal, prodVal, prodVal, val_pow, hi, val, val]
    simp only [Option.bind_some, powDef_inv]
    simp
  · intro z
    refine ⟨0, ?_, ?_⟩
    · rw [val_times, prodVal, prodVal, prodVal, val, val]
      simp [setTo]
    · rw [val]; simp [setTo]

/-- C127. Refuted for a variable under a root: isolation turns `x^(1/2) = -1` into `x = (-1)^2`, which is 1, and 1 is not a solution (`Solve` looks at its results once more afterwards). -/
theorem C127_radical (O : Ex → Option ℂ) (σ : String → ℂ) : let x := Ex.sym "x"
    isolate 3 "x" (pow x (.rat 1 2)) (.int (-1)) = some [pow (.int (-1)) (.int 2)] ∧ val O σ (pow (.int (-1)) (.int 2)) = some 1 ∧
    ¬ Solves O σ "x" 1 (pow x (.rat 1 2)) (.int (-1)) := by
  refine ⟨by decide +kernel, ?_, ?_⟩
  · have := val_int_pow (O := O) (σ := σ) (b := .int (-1)) 2 (by norm_num)
    rw [val_neg1] at this
    simpa using this
  · rintro ⟨v, h1, h2⟩
    have hx : val O (setTo σ "x" 1) (.sym "x") = some 1 := by rw [val]; simp [setTo]
    have h := val_root hx 2 (by norm_num)
    rw [h] at h1
    rw [val_neg1] at h2
    simp only [Complex.one_cpow, Option.some.injEq] at h1 h2
    rw [← h1] at h2
    norm_num at h2

end Expreduce
