import Verif.Proofs.IntMatch
import Mathlib.Analysis.SpecialFunctions.Pow.Deriv

/-! Values of templates, and what is known about the names of an integration rule. -/

namespace Expreduce
open Ex Shipped Filter Topology

mutual
/-- The value of a template. -/
def Sem (V : Interp) : Ex → ℂ → Prop
  | .int n, v => v = n
  | .rat n d, v => (d : ℂ) ≠ 0 ∧ v = n / d
  | .sym s, v => V.Denotes (.sym s) v
  | .expr (.sym s :: es), v => ∃ vs, SemL V es vs ∧ arithValue V s vs = some v
  | _, _ => False
/-- The same for a list. -/
def SemL (V : Interp) : List Ex → List ℂ → Prop
  | [], vs => vs = []
  | e :: es, vs => ∃ w ws, Sem V e w ∧ SemL V es ws ∧ vs = w :: ws
end

theorem den_rat_iff {V : Interp} {n d : Int} {v : ℂ} : V.Denotes (.rat n d) v ↔ (d : ℂ) ≠ 0 ∧ v = n / d := by
  unfold Interp.Denotes
  have : V.meaning.argVals (.rat n d) = [arithValue V "System`Rational" [(n : ℂ), (d : ℂ)]] := rfl
  rw [this, arith_rational]
  by_cases h : (d : ℂ) = 0
  · simp [h]
  · simp [h, eq_comm]

theorem den_sem {V : Interp} : ∀ (n : Nat) (t : Ex), sizeOf t < n → tmpl t = true → ∀ v, V.Denotes t v ↔ Sem V t v := by
  intro n
  induction n with
  | zero => intro t h; omega
  | succ n ih =>
    intro t hn ht v
    have ht' := ht
    unfold tmpl at ht
    split at ht
    · rw [Sem]
      exact ⟨fun h => den_unique h (den_int _), fun h => h ▸ den_int _⟩
    · rw [Sem]
      exact den_rat_iff
    · rw [Sem]
    · rename_i s es
      simp only [Bool.and_eq_true, List.contains_iff_mem] at ht
      have hq : s ≠ "System`Sequence" := fun he => absurd (he ▸ ht.1.1) (by decide)
      have hm := tmplL_mem ht.2
      have key : ∀ vs, List.Forall₂ V.Denotes es vs ↔ SemL V es vs := by
        have hsz : ∀ e ∈ es, sizeOf e < n := by
          intro e he
          have := List.sizeOf_lt_of_mem he
          simp only [Ex.expr.sizeOf_spec, List.cons.sizeOf_spec] at hn
          omega
        clear hn ht ht'
        induction es with
        | nil => intro vs; rw [SemL]; simp
        | cons e es ihl =>
          intro vs
          rw [SemL, List.forall₂_cons_left_iff]
          simp only [ih e (hsz e (by simp)) (hm e (by simp)), ihl (fun e he => hm e (by simp [he])) (fun e he => hsz e (by simp [he]))]
      rw [Sem]
      constructor
      · intro h
        obtain ⟨vs, h1, h2⟩ := den_inv hq (fun e he => tmpl_noSeq (hm e he)) h
        exact ⟨vs, (key vs).1 h1, h2⟩
      · rintro ⟨vs, h1, h2⟩
        exact den_app hq ((key vs).2 h1) h2
    · cases ht

theorem den_sem' {V : Interp} {t : Ex} (ht : tmpl t = true) {v : ℂ} : V.Denotes t v ↔ Sem V t v := den_sem _ t (Nat.lt_succ_self _) ht v

theorem powValue_some {x y v : ℂ} : powValue x y = some v ↔ (x ≠ 0 ∨ 0 < y.re) ∧ v = x ^ y := by
  unfold powValue
  by_cases hx : x = 0
  · by_cases hy : 0 < y.re
    · have : y ≠ 0 := fun h => by rw [h] at hy; simp at hy
      simp [hx, hy, Complex.zero_cpow this, eq_comm]
    · simp [hx, hy]
  · simp [hx, eq_comm]

section
variable {V : Interp}

@[simp] theorem semL_nil {vs : List ℂ} : SemL V [] vs ↔ vs = [] := by rw [SemL]
@[simp] theorem semL_cons {e : Ex} {es : List Ex} {vs : List ℂ} : SemL V (e :: es) vs ↔ ∃ w ws, Sem V e w ∧ SemL V es ws ∧ vs = w :: ws := by rw [SemL]
@[simp] theorem sem_int {n : Int} {v : ℂ} : Sem V (.int n) v ↔ v = n := by rw [Sem]
@[simp] theorem sem_rat {n d : Int} {v : ℂ} : Sem V (.rat n d) v ↔ (d : ℂ) ≠ 0 ∧ v = n / d := by rw [Sem]
@[simp] theorem sem_var {y : String} {v : ℂ} : Sem V (var y) v ↔ V.Denotes (var y) v := by rw [var, Sem]
@[simp] theorem sem_add {l : List Ex} {v : ℂ} : Sem V (add l) v ↔ ∃ vs, SemL V l vs ∧ v = vs.sum := by
  rw [add, call, S, Sem]
  have : "System`" ++ "Plus" = "System`Plus" := by decide
  simp only [this, arith_plus, Option.some.injEq, eq_comm]
@[simp] theorem sem_mul {l : List Ex} {v : ℂ} : Sem V (mul l) v ↔ ∃ vs, SemL V l vs ∧ v = vs.prod := by
  rw [mul, call, S, Sem]
  have : "System`" ++ "Times" = "System`Times" := by decide
  simp only [this, arith_times, Option.some.injEq, eq_comm]
@[simp] theorem sem_pow {a b : Ex} {v : ℂ} : Sem V (pow a b) v ↔ ∃ x y, Sem V a x ∧ Sem V b y ∧ (x ≠ 0 ∨ 0 < y.re) ∧ v = x ^ y := by
  rw [pow, call, S, Sem]
  have : "System`" ++ "Power" = "System`Power" := by decide
  rw [this]
  constructor
  · rintro ⟨vs, h1, h2⟩
    simp only [semL_cons, semL_nil] at h1
    obtain ⟨x, _, hx, ⟨y, _, hy, rfl, rfl⟩, rfl⟩ := h1
    rw [arith_pow, powValue_some] at h2
    exact ⟨x, y, hx, hy, h2⟩
  · rintro ⟨x, y, hx, hy, h⟩
    refine ⟨[x, y], by simp [hx, hy], ?_⟩
    rw [arith_pow, powValue_some]
    exact h
theorem sem_fn {s : String} (hs : "System`" ++ s ∉ arithHeads) {a : Ex} {v : ℂ} : Sem V (call s [a]) v ↔ ∃ x, Sem V a x ∧ V.fn ("System`" ++ s) [x] = some v := by
  rw [call, S, Sem]
  constructor
  · rintro ⟨vs, h1, h2⟩
    simp only [semL_cons, semL_nil] at h1
    obtain ⟨x, _, hx, rfl, rfl⟩ := h1
    rw [arith_fn hs] at h2
    exact ⟨x, hx, h2⟩
  · rintro ⟨x, hx, h⟩
    refine ⟨[x], by simp [hx], ?_⟩
    rw [arith_fn hs]
    exact h
theorem sem_log (hV : V.Standard) {a : Ex} {v : ℂ} : Sem V (call "Log" [a]) v ↔ ∃ x, Sem V a x ∧ x ≠ 0 ∧ v = Complex.log x := by
  rw [sem_fn (by decide)]
  refine exists_congr fun x => and_congr_right fun _ => ?_
  have : "System`" ++ "Log" = "System`Log" := by decide
  rw [this, hV.log]
  by_cases h : x = 0
  · simp [h]
  · simp [h, eq_comm]
theorem sem_sqrt (hV : V.Standard) {a : Ex} {v : ℂ} : Sem V (root2 a) v ↔ ∃ x, Sem V a x ∧ v = x ^ (1 / 2 : ℂ) := by
  rw [root2, sem_fn (by decide)]
  refine exists_congr fun x => and_congr_right fun _ => ?_
  have : "System`" ++ "Sqrt" = "System`Sqrt" := by decide
  rw [this, hV.sqrt, powValue_some]
  norm_num
@[simp] theorem sem_dv {a b : Ex} {v : ℂ} : Sem V (dv a b) v ↔ ∃ x y, Sem V a x ∧ Sem V b y ∧ y ≠ 0 ∧ v = x / y := by
  rw [dv]
  constructor
  · intro h
    simp only [sem_mul, semL_cons, semL_nil, sem_pow, sem_int] at h
    obtain ⟨_, ⟨x, _, hx, ⟨_, _, ⟨y, _, hy, rfl, h1, rfl⟩, rfl, rfl⟩, rfl⟩, rfl⟩ := h
    have h0 : y ≠ 0 := by
      rcases h1 with h1 | h1
      · exact h1
      · norm_num at h1
    refine ⟨x, y, hx, hy, h0, ?_⟩
    simp [div_eq_mul_inv, Complex.cpow_neg_one]
  · rintro ⟨x, y, hx, hy, h0, rfl⟩
    simp only [sem_mul, semL_cons, semL_nil, sem_pow, sem_int]
    refine ⟨_, ⟨x, _, hx, ⟨_, _, ⟨y, _, hy, rfl, .inl h0, rfl⟩, rfl, rfl⟩, rfl⟩, ?_⟩
    simp [div_eq_mul_inv, Complex.cpow_neg_one]
@[simp] theorem sem_neg {a : Ex} {v : ℂ} : Sem V (Shipped.neg a) v ↔ ∃ x, Sem V a x ∧ v = -x := by
  rw [Shipped.neg]
  simp only [sem_mul, semL_cons, semL_nil, sem_int]
  constructor
  · rintro ⟨_, ⟨_, _, rfl, ⟨x, _, hx, rfl, rfl⟩, rfl⟩, rfl⟩
    exact ⟨x, hx, by simp⟩
  · rintro ⟨x, hx, rfl⟩
    exact ⟨_, ⟨_, _, rfl, ⟨x, _, hx, rfl, rfl⟩, rfl⟩, by simp⟩
@[simp] theorem sem_sub {a b : Ex} {v : ℂ} : Sem V (Shipped.sub a b) v ↔ ∃ x y, Sem V a x ∧ Sem V b y ∧ v = x - y := by
  rw [Shipped.sub]
  simp only [sem_add, semL_cons, semL_nil, sem_neg]
  constructor
  · rintro ⟨_, ⟨x, _, hx, ⟨_, _, ⟨y, hy, rfl⟩, rfl, rfl⟩, rfl⟩, rfl⟩
    exact ⟨x, y, hx, hy, by simp [sub_eq_add_neg]⟩
  · rintro ⟨x, y, hx, hy, rfl⟩
    exact ⟨_, ⟨x, _, hx, ⟨_, _, ⟨y, hy, rfl⟩, rfl, rfl⟩, rfl⟩, by simp [sub_eq_add_neg]⟩
@[simp] theorem sem_sq {a : Ex} {v : ℂ} : Sem V (Shipped.sq a) v ↔ ∃ x, Sem V a x ∧ v = x ^ 2 := by
  rw [Shipped.sq, sem_pow]
  have : 0 < ((2 : Int) : ℂ).re := by norm_num
  constructor
  · rintro ⟨x, y, hx, hy, -, rfl⟩
    rw [sem_int] at hy
    subst hy
    exact ⟨x, hx, by simp⟩
  · rintro ⟨x, hx, rfl⟩
    exact ⟨x, _, hx, by rw [sem_int], .inr this, by simp⟩
end

/-! ### Settings -/

/-- What is known about the values of the names of a rule; the tests `t` with `T t` are true. -/
structure Setting (I : ℂ → Interp) (T : Ex → Prop) : Prop where
  std : ∀ z, (I z).Standard
  ident : ∀ z v, (I z).fn "System`Identity" [v] = some v
  var : ∀ z, (I z).Denotes (Shipped.var "x") z
  some : ∀ l, T (Shipped.call "Or" l) → ∃ c ∈ l, T c
  all : ∀ l, T (Shipped.call "And" l) → ∀ c ∈ l, T c
  equal : ∀ a b, tmpl a = true → tmpl b = true → T (eqQ a b) → ∀ z v w, (I z).Denotes a v → (I z).Denotes b w → v = w
  zero : ∀ a, tmpl a = true → T (eqQ0 a) → ∀ z v, (I z).Denotes a v → v = 0
  integer : ∀ a, tmpl a = true → T (Shipped.call "IntegerQ" [a]) → ∃ n : Int, ∀ z v, (I z).Denotes a v → v = n
  posInteger : ∀ a, tmpl a = true → T (testR "PositiveIntegerQ" [a]) → ∃ n : Int, ∀ z v, (I z).Denotes a v → v = n
  negInteger : ∀ a, tmpl a = true → T (testR "NegativeIntegerQ" [a]) → ∃ n : Int, ∀ z v, (I z).Denotes a v → v = n
  rational : ∀ a, tmpl a = true → T (testR "RationalQ" [a]) → ∃ q : Rat, ∀ z v, (I z).Denotes a v → v = q
  positive : ∀ a, tmpl a = true → T (testR "PositiveQ" [a]) → ∃ t : ℝ, 0 < t ∧ ∀ z v, (I z).Denotes a v → v = t

/-- Every value of the right side has the left side as its derivative. -/
def CalcOk (r : IntRule) : Prop :=
  ∀ (I : ℂ → Interp) (T : Ex → Prop) (F G : ℂ → ℂ), Setting I T → (∀ y ∈ r.free, ∀ z w v, (I z).Denotes (var y) v → (I w).Denotes (var y) v) → (∀ t ∈ r.tests, T t) →
    Reads I "Private`x" r.result F → (∀ᶠ z in mostly, (I z).Denotes (templateOf r.integrand) (G z)) → ∀ᶠ z in mostly, HasDerivAt F (G z) z

instance : NeBot mostly := by
  rw [← empty_mem_iff_bot.not.trans neBot_iff.symm] 
  intro h
  rw [mem_mostly, interior_empty] at h
  exact absurd (h 0) (by simp)

section
variable {I : ℂ → Interp} {T : Ex → Prop}

theorem leaf_mostly {t : Ex} {G : ℂ → ℂ} (ht : tmpl t = true) (hG : ∀ᶠ z in mostly, (I z).Denotes t (G z)) {y : String} (hy : "Private`" ++ y ∈ leaves t) :
    ∃ k : ℂ → ℂ, ∀ᶠ z in mostly, (I z).Denotes (var y) (k z) := by
  refine ⟨fun z => ((I z).meaning.val (var y)).getD 0, ?_⟩
  filter_upwards [hG] with z hz
  obtain ⟨w, hw⟩ := leaf_value _ t (Nat.lt_succ_self _) ht hz _ hy
  rw [den_val rfl]
  have hw' : (I z).Denotes (var y) w := hw
  rw [den_val rfl] at hw'
  rw [hw']; rfl

theorem leaf_const {t : Ex} {G : ℂ → ℂ} (ht : tmpl t = true) (hG : ∀ᶠ z in mostly, (I z).Denotes t (G z)) {y : String} (hy : "Private`" ++ y ∈ leaves t)
    (hc : ∀ z w v, (I z).Denotes (var y) v → (I w).Denotes (var y) v) : ∃ a, ∀ z, (I z).Denotes (var y) a := by
  obtain ⟨k, hk⟩ := leaf_mostly ht hG hy
  obtain ⟨z, hz⟩ := hk.exists
  exact ⟨k z, fun w => hc z w _ hz⟩

theorem leaf_iff {V : Interp} {y : String} {a : ℂ} (h : V.Denotes (var y) a) (v : ℂ) : V.Denotes (var y) v ↔ v = a :=
  ⟨fun h' => den_unique h' h, fun h' => h' ▸ h⟩

theorem tmpl_reads {t : Ex} {F : ℂ → ℂ} (ht : tmpl t = true) (ho : noOpen t = true) (h : Reads I "Private`x" t F) : ∀ᶠ z in mostly, Sem (I z) t (F z) := by
  filter_upwards [reads_closed ho h] with z hz
  exact (den_sem' ht).1 hz

/-- A sum, product, ... of readings. -/
theorem reads_two {s : String} {a b : Ex} {F : ℂ → ℂ} (hs : s ∉ openHeads) (hq : s ≠ "System`Sequence") (ha : hasHead "System`Sequence" a = false)
    (hb : hasHead "System`Sequence" b = false) (h : Reads I "Private`x" (.expr [.sym s, a, b]) F) :
    ∃ A B, Reads I "Private`x" a A ∧ Reads I "Private`x" b B ∧ ∀ᶠ z in mostly, arithValue (I z) s [A z, B z] = some (F z) := by
  obtain ⟨Fs, h1, h2⟩ := reads_app hs hq (by simp [ha, hb]) h
  cases h1 with
  | cons h1 h1' =>
    cases h1' with
    | cons h3 h4 =>
      cases h4
      exact ⟨_, _, h1, h3, h2⟩

theorem reads_add2 {a b : Ex} {F : ℂ → ℂ} (ha : hasHead "System`Sequence" a = false) (hb : hasHead "System`Sequence" b = false) (h : Reads I "Private`x" (add [a, b]) F) :
    ∃ A B, Reads I "Private`x" a A ∧ Reads I "Private`x" b B ∧ F =ᶠ[mostly] fun z => A z + B z := by
  obtain ⟨A, B, h1, h2, h3⟩ := reads_two (s := "System`Plus") (by decide) (by decide) ha hb h
  refine ⟨A, B, h1, h2, ?_⟩
  filter_upwards [h3] with z hz
  rw [arith_plus] at hz
  simpa using hz.symm

theorem reads_mul2 {a b : Ex} {F : ℂ → ℂ} (ha : hasHead "System`Sequence" a = false) (hb : hasHead "System`Sequence" b = false) (h : Reads I "Private`x" (mul [a, b]) F) :
    ∃ A B, Reads I "Private`x" a A ∧ Reads I "Private`x" b B ∧ F =ᶠ[mostly] fun z => A z * B z := by
  obtain ⟨A, B, h1, h2, h3⟩ := reads_two (s := "System`Times") (by decide) (by decide) ha hb h
  refine ⟨A, B, h1, h2, ?_⟩
  filter_upwards [h3] with z hz
  rw [arith_times] at hz
  simpa using hz.symm

end

/-! ### Derivatives -/

theorem hasDeriv_congr {F F' g G : ℂ → ℂ} (h : F =ᶠ[mostly] F') (h1 : ∀ᶠ z in mostly, HasDerivAt F' (g z) z) (h2 : ∀ᶠ z in mostly, g z = G z) :
    ∀ᶠ z in mostly, HasDerivAt F (G z) z := by
  filter_upwards [mostly_nhds h, h1, h2] with z k1 k2 k3
  rw [← k3]
  exact k2.congr_of_eventuallyEq k1

theorem gen_linear (a b : ℂ) : Gen (fun z => a + b * z) := (gen_const a).add ((gen_const b).mul gen_id)

/-- A linear function is constantly 0 or mostly not 0. -/
theorem linear_ne (a b : ℂ) (h : a ≠ 0 ∨ b ≠ 0) : ∀ᶠ z in mostly, a + b * z ≠ 0 := by
  have hA : ∀ z, AnalyticAt ℂ (fun z => a + b * z) z := fun z => by fun_prop
  rcases h with h | h
  · exact mostly_ne hA (z₀ := 0) (by simpa using h)
  · by_cases ha : a = 0
    · exact mostly_ne hA (z₀ := 1) (by simpa [ha] using h)
    · exact mostly_ne hA (z₀ := 0) (by simpa using ha)

/-- The derivative of the power of a linear function. -/
theorem deriv_linPow {a b : ℂ} (m : ℂ) (h : a ≠ 0 ∨ b ≠ 0) : ∀ᶠ z in mostly, HasDerivAt (fun w => (a + b * w) ^ m) (m * b * ((a + b * z) ^ m / (a + b * z))) z := by
  have h0 := linear_ne a b h
  have hp : Gen (fun z => (a + b * z) ^ m) := by
    refine Gen.congr ?_ ((gen_linear a b).pow (gen_const m))
    filter_upwards [h0] with z hz
    simp only [if_neg hz]
  filter_upwards [hp, deriv_pow_mostly (gen_linear a b) (gen_const m) h0] with z k1 k2
  have k3 := k1.differentiableAt.hasDerivAt
  rw [k2] at k3
  have k4 : deriv (fun z => a + b * z) z = b := by
    have : HasDerivAt (fun z => a + b * z) (b * 1) z := ((hasDerivAt_id z).const_mul b).const_add a
    simpa using this.deriv
  have hc : deriv (fun _ : ℂ => m) z = 0 := deriv_const z m
  rw [k4, hc] at k3
  have he : (a + b * z) ^ m * (0 * Complex.log (a + b * z) + b * (a + b * z)⁻¹ * m) = m * b * ((a + b * z) ^ m / (a + b * z)) := by
    rw [div_eq_mul_inv]; ring
  rwa [he] at k3

theorem deriv_linLog {a b : ℂ} (h : a ≠ 0 ∨ b ≠ 0) : ∀ᶠ z in mostly, HasDerivAt (fun w => Complex.log (a + b * w)) (b / (a + b * z)) z := by
  have h0 := linear_ne a b h
  have hp : Gen (fun z => Complex.log (a + b * z)) := gen_log.comp (gen_linear a b)
  filter_upwards [hp, deriv_log_mostly (gen_linear a b) h0] with z k1 k2
  have k3 := k1.differentiableAt.hasDerivAt
  rw [k2] at k3
  have k4 : deriv (fun z => a + b * z) z = b := by
    have : HasDerivAt (fun z => a + b * z) (b * 1) z := ((hasDerivAt_id z).const_mul b).const_add a
    simpa using this.deriv
  rw [k4] at k3
  exact k3

end Expreduce
