import Verif.Props.NumTheory

/-! More about integers with rational exponents: more steps change nothing, and the shape of the result. -/

namespace Expreduce
open Ex

theorem nthRootLoop_mono : ∀ (f x n z : Nat) (r), nthRootLoop f x n z = some r → nthRootLoop (f + 1) x n z = some r := by
  intro f
  induction f with
  | zero => intro x n z r h; cases h
  | succ f ih =>
    intro x n z r h
    rw [nthRootLoop] at h ⊢
    split at h
    · cases h
    · rename_i h0
      rw [if_neg h0]
      simp only at h ⊢
      split at h
      · rename_i h1; rw [if_pos h1]; exact h
      · rename_i h1; rw [if_neg h1]; exact ih _ _ _ _ h

theorem nthRoot_mono {f x n : Nat} {r} (h : nthRoot f x n = some r) : nthRoot (f + 1) x n = some r := by
  unfold nthRoot at h ⊢
  split at h
  · rename_i h0; rw [if_pos h0]; exact h
  · rename_i h0; rw [if_neg h0]; exact nthRootLoop_mono _ _ _ _ _ h

theorem nextFactor_mono : ∀ (f : Nat) (n i : Int) (r), nextFactor f n i = some r → nextFactor (f + 1) n i = some r := by
  intro f
  induction f with
  | zero => intro n i r h; cases h
  | succ f ih =>
    intro n i r h
    rw [nextFactor] at h ⊢
    split at h
    · rename_i h0; rw [if_pos h0]; exact h
    · rename_i h0; rw [if_neg h0]; exact ih _ _ _ h

theorem pfLoop_mono : ∀ (f : Nat) (n : Int) (r), pfLoop f n = some r → pfLoop (f + 1) n = some r := by
  intro f
  induction f with
  | zero => intro n r h; cases h
  | succ f ih =>
    intro n r h
    rw [pfLoop] at h ⊢
    split at h
    · rename_i h0; rw [if_pos h0]; exact h
    · rename_i h0
      rw [if_neg h0]
      cases h1 : nextFactor f n 2 with
      | none => rw [h1] at h; cases h
      | some i =>
        rw [h1] at h
        simp only at h
        rw [nextFactor_mono _ _ _ _ h1]
        simp only
        cases h2 : pfLoop f (n / i) with
        | none => rw [h2] at h; cases h
        | some l =>
          rw [h2] at h
          rw [ih _ _ h2]
          exact h

theorem tallied_mono {f : Nat} {n : Int} {r} (h : primeFactorsTallied f n = some r) : primeFactorsTallied (f + 1) n = some r := by
  unfold primeFactorsTallied at h ⊢
  obtain ⟨l, h1, h2⟩ := Option.map_eq_some_iff.1 h
  have : primeFactors (f + 1) n = some l := by
    unfold primeFactors at h1 ⊢
    split at h1
    · rename_i h0; rw [if_pos h0]; exact h1
    · rename_i h0; rw [if_neg h0]; exact pfLoop_mono _ _ _ h1
  rw [this, ← h2]
  rfl

theorem powerIntRat_mono {f : Nat} {order : List (Nat × Int) → List (Nat × Int)} {x m : Int} {n : Nat} {r} (h : powerIntRat f order x m n = some r) :
    powerIntRat (f + 1) order x m n = some r := by
  unfold powerIntRat at h ⊢
  simp only at h ⊢
  split at h
  · rename_i hx
    rw [if_pos hx]
    cases h1 : nthRoot f x.toNat n with
    | none => rw [h1] at h; cases h
    | some q =>
      rw [h1] at h
      rw [nthRoot_mono h1]
      cases q with
      | some root => exact h
      | none =>
        simp only at h ⊢
        cases h2 : primeFactorsTallied f x with
        | none => rw [h2] at h; cases h
        | some t => rw [h2] at h; rw [tallied_mono h2]; exact h
  · rename_i hx
    rw [if_neg hx]
    exact h

theorem powerIntRat_mono' {f g : Nat} (hg : f ≤ g) {order : List (Nat × Int) → List (Nat × Int)} {x m : Int} {n : Nat} {r}
    (h : powerIntRat f order x m n = some r) : powerIntRat g order x m n = some r := by
  induction hg with
  | refl => exact h
  | step _ ih => exact powerIntRat_mono ih

/-- C56 for every number of steps. -/
theorem powerIntRat_value (order : List (Nat × Int) → List (Nat × Int)) (ho : ∀ l, (order l).Perm l)
    (x m : Int) (n : Nat) (hn : 2 ≤ n) (h : (0 ≤ x ∧ (x ≠ 0 ∨ 0 < m)) ∨ m = 1 ∨ m = -1) (hx0 : x = 0 → 0 < m) {f : Nat} {r : Ex}
    (hr : powerIntRat f order x m n = some r) : cval r = (x : ℂ) ^ ((m : ℂ) / (n : ℂ)) := by
  obtain ⟨F, hF⟩ := C56_value_partial order ho x m n hn h hx0
  obtain ⟨r', h1, h2⟩ := hF (max f F) (by omega)
  rw [powerIntRat_mono' (by omega) hr] at h1
  cases h1
  exact h2

theorem tally_pos (l : List Int) : ∀ t : List (Int × Nat), (∀ y ∈ t, y.2 ≠ 0) → ∀ y ∈ l.foldl tallyAdd t, y.2 ≠ 0 := by
  have step : ∀ (t : List (Int × Nat)) p, (∀ y ∈ t, y.2 ≠ 0) → ∀ y ∈ tallyAdd t p, y.2 ≠ 0 := by
    intro t p
    induction t with
    | nil => intro _ y hy; simp [tallyAdd] at hy; subst hy; simp
    | cons a t ih =>
      obtain ⟨q, k⟩ := a
      intro h y hy
      rw [tallyAdd] at hy
      split at hy
      · rcases List.mem_cons.1 hy with rfl | hy
        · simp
        · exact h y (by simp [hy])
      · rcases List.mem_cons.1 hy with rfl | hy
        · exact h _ (by simp)
        · exact ih (fun y hy => h y (by simp [hy])) y hy
  induction l with
  | nil => intro t h; exact h
  | cons p l ih => intro t h; exact ih _ (step t p h)

theorem bases_keys (l : List (Int × Nat)) (hl : ∀ y ∈ l, y.2 ≠ 0) : ∀ t : List (Nat × Int), (∀ y ∈ t, y.1 ≠ 0) → ∀ y ∈ l.foldl basesAdd t, y.1 ≠ 0 := by
  have step : ∀ (t : List (Nat × Int)) (p : Int × Nat), p.2 ≠ 0 → (∀ y ∈ t, y.1 ≠ 0) → ∀ y ∈ basesAdd t p, y.1 ≠ 0 := by
    intro t p hp
    induction t with
    | nil => intro _ y hy; simp [basesAdd] at hy; subst hy; exact hp
    | cons a t ih =>
      obtain ⟨q, k⟩ := a
      intro h y hy
      rw [basesAdd] at hy
      split at hy
      · rcases List.mem_cons.1 hy with rfl | hy
        · exact h (q, k) (by simp)
        · exact h y (by simp [hy])
      · rcases List.mem_cons.1 hy with rfl | hy
        · exact h _ (by simp)
        · exact ih (fun y hy => h y (by simp [hy])) y hy
  induction l with
  | nil => intro t h; exact h
  | cons p l ih => intro t h; exact ih (fun y hy => hl y (by simp [hy])) _ (step t p (hl p (by simp)) h)

/-- A power of an integer with an exponent other than 0, or a number. -/
inductive PowAtom : Ex → Prop
  | int (k) : PowAtom (.int k)
  | rat {a b} : b ≠ 0 → PowAtom (.rat a b)
  | powI (b) {q} : q ≠ 0 → PowAtom (.expr [S "Power", .int b, .int q])
  | powR (b) {q d} : q ≠ 0 → d ≠ 0 → PowAtom (.expr [S "Power", .int b, .rat q d])

/-- The shape of the result. -/
theorem powerIntRat_shape {order : List (Nat × Int) → List (Nat × Int)} (ho : ∀ l, (order l).Perm l) {x m : Int} {n : Nat} (hn : n ≠ 0) (hm : m ≠ 0)
    {f : Nat} {r : Ex} (hr : powerIntRat f order x m n = some r) : PowAtom r ∨ ∃ l, r = .expr (S "Times" :: l) ∧ ∀ a ∈ l, PowAtom a := by
  have hn' : (n : Int) ≠ 0 := by omega
  unfold powerIntRat at hr
  simp only at hr
  have htail : ∀ r', (some (match radSimp x.natAbs n with
      | some (extracted, radicand) => Ex.expr [S "Times", if m < 0 then .rat 1 extracted else .int extracted, .expr [S "Power", .int (if x < 0 then -(radicand : Int) else radicand), .rat m n]]
      | none => .expr [S "Power", .int x, .rat m n])) = some r' → PowAtom r' ∨ ∃ l, r' = .expr (S "Times" :: l) ∧ ∀ a ∈ l, PowAtom a := by
    intro r' h
    unfold radSimp at h
    split at h
    · rename_i e rad heq
      split at heq
      · cases heq
        cases h
        right
        refine ⟨_, rfl, ?_⟩
        intro a ha
        simp only [List.mem_cons, List.not_mem_nil, or_false] at ha
        rcases ha with rfl | rfl
        · split
          · exact .rat (by decide)
          · exact .int _
        · exact .powR _ hm hn'
      · cases heq
    · cases h
      exact .inl (.powR _ hm hn')
  split at hr
  · split at hr
    · cases hr
    · cases hr
      left
      split
      · exact .int _
      · exact .powI _ hm
    · split at hr
      · cases hr
      · rename_i t ht
        split at hr
        · rename_i bases hb
          cases hr
          right
          refine ⟨_, rfl, ?_⟩
          intro a ha
          obtain ⟨kb, h1, rfl⟩ := List.mem_map.1 ha
          have h2 : kb ∈ bases := (ho bases).mem_iff.1 h1
          refine .powR _ ?_ hn'
          have : kb.1 ≠ 0 := by
            unfold extractBases at hb
            split at hb
            · cases hb
              refine bases_keys t ?_ [] (by simp) kb h2
              unfold primeFactorsTallied at ht
              obtain ⟨l, _, h3⟩ := Option.map_eq_some_iff.1 ht
              rw [← h3]
              exact tally_pos l [] (by simp)
            · cases hb
          have : (kb.1 : Int) ≠ 0 := by omega
          exact mul_ne_zero hm this
        · exact htail r hr
  · exact htail r hr

end Expreduce
