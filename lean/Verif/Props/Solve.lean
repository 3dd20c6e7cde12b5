import Verif.Proofs.SolveEnd

/-! Property C103: `Solve` and polynomial equations of degree 2, 3 and 4. -/

namespace Expreduce
open Ex Shipped

theorem fill_any (ρ : String → Option Ex) (y : String) : fill ρ (any y) = subst ρ (var y) := by
  cases h : ρ ("Private`" ++ y) <;> simp [any, var, S, fill, argName, testName, coreName, subst, h]
theorem fill_opt (ρ : String → Option Ex) (y : String) : fill ρ (opt (any y)) = subst ρ (var y) := by
  cases h : ρ ("Private`" ++ y) <;> simp [opt, any, call, var, S, fill, argName, testName, coreName, subst, h]
theorem fill_term {ρ : String → Option Ex} {x : String} (hx : ρ "Private`x" = some (.sym x)) (y : String) (n : Int) :
    fill ρ (Shipped.term y n) = mul [subst ρ (var y), pow (.sym x) (.int n)] := by
  cases h : ρ ("Private`" ++ y) <;> simp [Shipped.term, mul, pow, opt, any, call, var, S, fill, fillL, argName, testName, coreName, subst, h, hx]
theorem fill_term1 {ρ : String → Option Ex} {x : String} (hx : ρ "Private`x" = some (.sym x)) (y : String) :
    fill ρ (term1 y) = mul [subst ρ (var y), .sym x] := by
  cases h : ρ ("Private`" ++ y) <;> simp [term1, mul, pow, opt, any, call, var, S, fill, fillL, argName, testName, coreName, subst, h, hx]
theorem fill_add2 (ρ : String → Option Ex) (a b : Ex) (h : argName (add [a, b]) = none) : fill ρ (add [a, b]) = add [fill ρ a, fill ρ b] := by
  rw [fill.eq_def, h]; simp [add, call, S, fillL]
theorem fill_add3 (ρ : String → Option Ex) (a b c : Ex) (h : argName (add [a, b, c]) = none) : fill ρ (add [a, b, c]) = add [fill ρ a, fill ρ b, fill ρ c] := by
  rw [fill.eq_def, h]; simp [add, call, S, fillL]
theorem fill_add4 (ρ : String → Option Ex) (a b c d : Ex) (h : argName (add [a, b, c, d]) = none) :
    fill ρ (add [a, b, c, d]) = add [fill ρ a, fill ρ b, fill ρ c, fill ρ d] := by
  rw [fill.eq_def, h]; simp [add, call, S, fillL]
theorem fill_add5 (ρ : String → Option Ex) (a b c d e : Ex) (h : argName (add [a, b, c, d, e]) = none) :
    fill ρ (add [a, b, c, d, e]) = add [fill ρ a, fill ρ b, fill ρ c, fill ρ d, fill ρ e] := by
  rw [fill.eq_def, h]; simp [add, call, S, fillL]

theorem all2 {p : Ex → Prop} {a b : Ex} (h1 : p a) (h2 : p b) : ∀ e ∈ [a, b], p e :=
  List.forall_mem_cons.2 ⟨h1, List.forall_mem_cons.2 ⟨h2, fun _ h => by cases h⟩⟩
theorem all3 {p : Ex → Prop} {a b c : Ex} (h1 : p a) (h2 : p b) (h3 : p c) : ∀ e ∈ [a, b, c], p e := List.forall_mem_cons.2 ⟨h1, all2 h2 h3⟩
theorem all4 {p : Ex → Prop} {a b c d : Ex} (h1 : p a) (h2 : p b) (h3 : p c) (h4 : p d) : ∀ e ∈ [a, b, c, d], p e := List.forall_mem_cons.2 ⟨h1, all3 h2 h3 h4⟩
theorem all5 {p : Ex → Prop} {a b c d e : Ex} (h1 : p a) (h2 : p b) (h3 : p c) (h4 : p d) (h5 : p e) : ∀ f ∈ [a, b, c, d, e], p f :=
  List.forall_mem_cons.2 ⟨h1, all4 h2 h3 h4 h5⟩

theorem le23 : 2 ≤ 3 := by decide
theorem le24 : 2 ≤ 4 := by decide

/-- An environment with the attributes needed for the patterns. -/
def sumsEnv : MEnv := { bareEnv with orderless := fun s => s == "System`Plus" || s == "System`Times" }

theorem fpat_sums {env : MEnv} {pl : List String} (hE : ArithEnv env pl) {n : Nat} {p : Ex} (h : fpatB sumsEnv polyHeads n p = true) : FPat env (· ∈ polyHeads) p :=
  (fpatB_sound h).mono (fun s h => by
    simp only [sumsEnv, Bool.or_eq_true, beq_iff_eq] at h
    rcases h with rfl | rfl
    · exact hE.plus.2.1
    · exact hE.times.2.1)

theorem function_congr {V : Interp} {x : String} {P Q : Ex} {p : ℂ → ℂ} (h : ∀ V : Interp, V.meaning.argVals Q = V.meaning.argVals P) (hp : IsFunction V x P p) : IsFunction V x Q p := by
  intro z
  unfold Interp.Denotes
  rw [h]
  exact hp z

theorem subst_x {ρ : String → Option Ex} {x : String} (h : ρ "Private`x" = some (.sym x)) : subst ρ (var "x") = .sym x := by simp [var, subst, h]

/-- The solutions, from the values of the coefficients. -/
theorem solutions_of {V : Interp} (hV : V.Standard) {x : String} (hx : isVariable x) {p : ℂ → ℂ} {a : ℂ} {es : List Ex} {ss : List ℂ}
    (h : ∀ z, (V.put x z).Standard → List.Forall₂ (V.put x z).Denotes es ss) (hf : Factors p a ss) : SolutionsOf V x p a (sols (.sym x) es) := by
  refine ⟨es, ss, rfl, ?_, hf⟩
  rw [List.forall₂_iff_get]
  have h0 := fun z => List.forall₂_iff_get.1 (h z (put_standard hV hx z))
  exact ⟨(h0 0).1, fun i h1 h2 z => (h0 z).2 i h1 h2⟩

/-- The coefficients are determined by the function. -/
theorem coefs2 {a b c a' b' c' : ℂ} (h : ∀ z : ℂ, a * z ^ 2 + b * z + c = a' * z ^ 2 + b' * z + c') : a = a' ∧ b = b' ∧ c = c' := by
  have h0 := h 0
  have h1 := h 1
  have h2 := h (-1)
  exact ⟨by linear_combination h1 / 2 + h2 / 2 - h0, by linear_combination h1 / 2 - h2 / 2, by linear_combination h0⟩

theorem coefs3 {d c b a d' c' b' a' : ℂ} (h : ∀ z : ℂ, d * z ^ 3 + c * z ^ 2 + b * z + a = d' * z ^ 3 + c' * z ^ 2 + b' * z + a') : d = d' ∧ c = c' ∧ b = b' ∧ a = a' := by
  have h0 := h 0
  have h1 := h 1
  have h2 := h (-1)
  have h3 := h 2
  exact ⟨by linear_combination h3 / 6 - h1 / 2 + h0 / 2 - h2 / 6, by linear_combination h1 / 2 + h2 / 2 - h0,
    by linear_combination -h3 / 6 + h1 - h0 / 2 - h2 / 3, by linear_combination h0⟩

theorem coefs4 {e d c b a e' d' c' b' a' : ℂ} (h : ∀ z : ℂ, e * z ^ 4 + d * z ^ 3 + c * z ^ 2 + b * z + a = e' * z ^ 4 + d' * z ^ 3 + c' * z ^ 2 + b' * z + a') :
    e = e' ∧ d = d' ∧ c = c' ∧ b = b' ∧ a = a' := by
  have h0 := h 0
  have h1 := h 1
  have h2 := h (-1)
  have h3 := h 2
  have h4 := h (-2)
  exact ⟨by linear_combination h3 / 24 + h4 / 24 - h1 / 6 - h2 / 6 + h0 / 4, by linear_combination h3 / 12 - h4 / 12 - h1 / 6 + h2 / 6,
    by linear_combination -h3 / 24 - h4 / 24 + 2 * h1 / 3 + 2 * h2 / 3 - 5 * h0 / 4, by linear_combination -h3 / 12 + h4 / 12 + 2 * h1 / 3 - 2 * h2 / 3,
    by linear_combination h0⟩

/-- `solveCubic` with the coefficients. -/
theorem cubic_formula {env : MEnv} [env.Exact] {locals : Ex → Option Ex} (hE : ArithEnv env solveFns) (hL : LocalsOk locals) {D C B A X r : Ex}
    (h : RuleGives env locals polyHeads cubicRule (callP "solveCubic" [D, C, B, A, X]) r) : r = sols X (cubicSols D C B A) ∧
      hasHead "System`Sequence" D = false ∧ hasHead "System`Sequence" C = false ∧ hasHead "System`Sequence" B = false ∧ hasHead "System`Sequence" A = false := by
  obtain ⟨σ, w1, w2, w3⟩ := formula_rule (names := ["d", "c", "b", "a", "x"]) hE (by decide) (by decide) (epatB_sound (n := 9) (by decide +kernel)) (by decide +kernel) h
  rw [subst_sols w1, subst_cubic w1] at w3
  obtain rfl := yields_call hL (by decide) w3
  simp only [List.forall₂_cons, List.forall₂_nil_left_iff, and_true] at w2
  obtain ⟨⟨e1, n1⟩, ⟨e2, n2⟩, ⟨e3, n3⟩, ⟨e4, n4⟩, ⟨e5, n5⟩⟩ := w2
  refine ⟨?_, n1, n2, n3, n4⟩
  rw [e1, e2, e3, e4, e5]
  rfl

/-- `solveQuartic` with the coefficients. -/
theorem quartic_formula {env : MEnv} [env.Exact] {locals : Ex → Option Ex} (hE : ArithEnv env solveFns) (hL : LocalsOk locals) {E D C B A X r : Ex}
    (h : RuleGives env locals polyHeads quarticRule (callP "solveQuartic" [E, D, C, B, A, X]) r) : r = sols X (quarticSols E D C B A) ∧
      hasHead "System`Sequence" E = false ∧ hasHead "System`Sequence" D = false ∧ hasHead "System`Sequence" C = false ∧ hasHead "System`Sequence" B = false ∧
      hasHead "System`Sequence" A = false := by
  obtain ⟨σ, w1, w2, w3⟩ := formula_rule (names := ["e", "d", "c", "b", "a", "x"]) hE (by decide) (by decide) (epatB_sound (n := 9) (by decide +kernel)) (by decide +kernel) h
  rw [Shipped.cond, subst_sys (w1 _ (by decide)), List.map_cons, List.map_cons, List.map_nil] at w3
  obtain ⟨_, w3⟩ := yields_cond w3
  rw [subst_sols w1, subst_quartic w1] at w3
  obtain rfl := yields_call hL (by decide) w3
  simp only [List.forall₂_cons, List.forall₂_nil_left_iff, and_true] at w2
  obtain ⟨⟨e1, n1⟩, ⟨e2, n2⟩, ⟨e3, n3⟩, ⟨e4, n4⟩, ⟨e5, n5⟩, ⟨e6, n6⟩⟩ := w2
  refine ⟨?_, n1, n2, n3, n4, n5⟩
  rw [e1, e2, e3, e4, e5, e6]
  rfl

section
variable (V : Interp) (hV : V.Standard) (env : MEnv) [env.Exact] (locals : Ex → Option Ex) (hE : ArithEnv env solveFns) (hL : LocalsOk locals) (x : String) (hx : isVariable x)
  (hfree : FreeOk env.isTrue x)
include hV hE hL hx hfree

/-- C103. For every expression that is `a x^2 + b x + c` with `a` not 0, the rules of `Solve` give its two zeros, with their
multiplicity. (The rule that reads off the coefficients and the rule with the formula.) -/
theorem C103_quadratic_partial (P mid r : Ex) (rule : Ex × Ex) (hr : rule ∈ quadraticCoefs) (h1 : RuleGives env locals polyHeads rule (callP "solveQuadratic" [P, .sym x]) mid)
    (h2 : RuleGives env locals polyHeads quadraticRule mid r) (a b c : ℂ) (ha : a ≠ 0) (hp : IsFunction V x P (fun z => a * z ^ 2 + b * z + c)) :
    SolutionsOf V x (fun z => a * z ^ 2 + b * z + c) a r := by
  simp only [quadraticCoefs, List.mem_cons, List.not_mem_nil, or_false] at hr
  subst hr
  obtain ⟨ρ, u1, u2, u3, u4, u5, u6⟩ := coef_rule hE hfree (by decide) (by decide) (epatB_sound (n := 9) (by decide +kernel)) (fpat_sums hE (n := 9) (by decide +kernel)) (by decide +kernel)
    (by decide +kernel) (by decide +kernel) h1
  rw [subst_priv (u1 _ (by decide))] at u6
  obtain rfl := yields_call hL (by decide) u6
  obtain ⟨σ, w1, w2, w3⟩ := formula_rule (names := ["a", "b", "c", "x"]) hE (by decide) (by decide) (epatB_sound (n := 9) (by decide +kernel)) (by decide +kernel) h2
  rw [subst_sols w1, subst_quadratic w1] at w3
  obtain rfl := yields_call hL (by decide) w3
  simp only [List.map_cons, List.map_nil, List.forall₂_cons, List.forall₂_nil_left_iff, and_true] at w2
  obtain ⟨⟨e1, n1⟩, ⟨e2, n2⟩, ⟨e3, n3⟩, ⟨e4, n4⟩⟩ := w2
  rw [e1, e2, e3, e4, subst_x u2]
  have hP := function_congr u5 hp
  rw [fill_add3 _ _ _ _ (by decide +kernel), fill_term u2, fill_term1 u2, fill_opt] at hP
  obtain ⟨as, k1, k2⟩ := poly_coefs hx (As := [_, _, _]) (ns := [2, 1, 0]) (.cons (.pow le_rfl) (.cons .one (.cons .const .nil))) rfl (all3 n1 n2 n3)
    (all3 (u4 _ (by decide)) (u4 _ (by decide)) (u4 _ (by decide))) hP
  simp only [List.forall₂_cons_left_iff, List.forall₂_nil_left_iff] at k1
  obtain ⟨a', _, f1, ⟨b', _, f2, ⟨c', _, f3, rfl, rfl⟩, rfl⟩, rfl⟩ := k1
  obtain ⟨rfl, rfl, rfl⟩ := coefs2 (a' := a') (b' := b') (c' := c') (fun z => by rw [k2 z]; simp; ring)
  obtain ⟨ss, v1, v2⟩ := quadratic_values (b := b) (c := c) ha
  exact solutions_of hV hx (fun z hz => v1 _ hz _ _ _ (f1 z) (f2 z) (f3 z)) v2


omit hV in
/-- The coefficients of a cubic polynomial. -/
theorem cubic_read {P mid r : Ex} {rule : Ex × Ex} (hr : rule ∈ cubicCoefs) (h1 : RuleGives env locals polyHeads rule (callP "solveCubic" [P, .sym x]) mid)
    (h2 : RuleGives env locals polyHeads cubicRule mid r) {d c b a : ℂ} (hp : IsFunction V x P (fun z => d * z ^ 3 + c * z ^ 2 + b * z + a)) :
    ∃ D C B A, r = sols (.sym x) (cubicSols D C B A) ∧ IsFunction V x D (fun _ => d) ∧ IsFunction V x C (fun _ => c) ∧ IsFunction V x B (fun _ => b) ∧
      IsFunction V x A (fun _ => a) := by
  simp only [cubicCoefs, List.mem_cons, List.not_mem_nil, or_false] at hr
  rcases hr with rfl | rfl | rfl
  · obtain ⟨ρ, u1, u2, u3, u4, u5, u6⟩ := coef_rule hE hfree (by decide) (by decide) (epatB_sound (n := 9) (by decide +kernel)) (fpat_sums hE (n := 9) (by decide +kernel))
      (by decide +kernel) (by decide +kernel) (by decide +kernel) h1
    rw [subst_priv (u1 _ (by decide))] at u6
    obtain rfl := yields_call hL (by decide) u6
    obtain ⟨rfl, n1, n2, n3, n4⟩ := cubic_formula hE hL h2
    rw [subst_x u2]
    have hP := function_congr u5 hp
    rw [fill_add4 _ _ _ _ _ (by decide +kernel), fill_term u2, fill_term u2, fill_term1 u2, fill_opt] at hP
    obtain ⟨as, k1, k2⟩ := poly_coefs hx (As := [_, _, _, _]) (ns := [3, 2, 1, 0]) (.cons (.pow le23) (.cons (.pow le_rfl) (.cons .one (.cons .const .nil)))) rfl (all4 n1 n2 n3 n4)
      (all4 (u4 _ (by decide)) (u4 _ (by decide)) (u4 _ (by decide)) (u4 _ (by decide))) hP
    simp only [List.forall₂_cons_left_iff, List.forall₂_nil_left_iff] at k1
    obtain ⟨d', _, f1, ⟨c', _, f2, ⟨b', _, f3, ⟨a', _, f4, rfl, rfl⟩, rfl⟩, rfl⟩, rfl⟩ := k1
    obtain ⟨rfl, rfl, rfl, rfl⟩ := coefs3 (d' := d') (c' := c') (b' := b') (a' := a') (fun z => by rw [k2 z]; simp; ring)
    exact ⟨_, _, _, _, rfl, f1, f2, f3, f4⟩
  · obtain ⟨ρ, u1, u2, u3, u4, u5, u6⟩ := coef_rule hE hfree (by decide) (by decide) (epatB_sound (n := 9) (by decide +kernel)) (fpat_sums hE (n := 9) (by decide +kernel))
      (by decide +kernel) (by decide +kernel) (by decide +kernel) h1
    rw [subst_priv (u1 _ (by decide))] at u6
    obtain rfl := yields_call hL (by decide) u6
    simp only [List.map_cons, List.map_nil, subst_int] at h2
    obtain ⟨rfl, n1, n2, n3, n4⟩ := cubic_formula hE hL h2
    rw [subst_x u2]
    have hP := function_congr u5 hp
    rw [fill_add3 _ _ _ _ (by decide +kernel), fill_term u2, fill_term u2, fill_opt] at hP
    obtain ⟨as, k1, k2⟩ := poly_coefs hx (As := [_, _, _]) (ns := [3, 2, 0]) (.cons (.pow le23) (.cons (.pow le_rfl) (.cons .const .nil))) rfl (all3 n1 n2 n4)
      (all3 (u4 _ (by decide)) (u4 _ (by decide)) (u4 _ (by decide))) hP
    simp only [List.forall₂_cons_left_iff, List.forall₂_nil_left_iff] at k1
    obtain ⟨d', _, f1, ⟨c', _, f2, ⟨a', _, f4, rfl, rfl⟩, rfl⟩, rfl⟩ := k1
    obtain ⟨rfl, rfl, rfl, rfl⟩ := coefs3 (d' := d') (c' := c') (b' := 0) (a' := a') (fun z => by rw [k2 z]; simp; ring)
    exact ⟨_, _, _, _, rfl, f1, f2, fun _ => den_0, f4⟩
  · obtain ⟨ρ, u1, u2, u3, u4, u5, u6⟩ := coef_rule hE hfree (by decide) (by decide) (epatB_sound (n := 9) (by decide +kernel)) (fpat_sums hE (n := 9) (by decide +kernel))
      (by decide +kernel) (by decide +kernel) (by decide +kernel) h1
    rw [subst_priv (u1 _ (by decide))] at u6
    obtain rfl := yields_call hL (by decide) u6
    simp only [List.map_cons, List.map_nil, subst_int] at h2
    obtain ⟨rfl, n1, n2, n3, n4⟩ := cubic_formula hE hL h2
    rw [subst_x u2]
    have hP := function_congr u5 hp
    rw [fill_add3 _ _ _ _ (by decide +kernel), fill_term u2, fill_term1 u2, fill_opt] at hP
    obtain ⟨as, k1, k2⟩ := poly_coefs hx (As := [_, _, _]) (ns := [3, 1, 0]) (.cons (.pow le23) (.cons .one (.cons .const .nil))) rfl (all3 n1 n3 n4)
      (all3 (u4 _ (by decide)) (u4 _ (by decide)) (u4 _ (by decide))) hP
    simp only [List.forall₂_cons_left_iff, List.forall₂_nil_left_iff] at k1
    obtain ⟨d', _, f1, ⟨b', _, f3, ⟨a', _, f4, rfl, rfl⟩, rfl⟩, rfl⟩ := k1
    obtain ⟨rfl, rfl, rfl, rfl⟩ := coefs3 (d' := d') (c' := 0) (b' := b') (a' := a') (fun z => by rw [k2 z]; simp; ring)
    exact ⟨_, _, _, _, rfl, f1, fun _ => den_0, f3, f4⟩

/-- C103. For every expression that is `d x^3 + c x^2 + b x + a` with `d` not 0, the rules of `Solve` give its three zeros, with their
multiplicity, if the number below the cube root is not 0. -/
theorem C103_cubic_partial (P mid r : Ex) (rule : Ex × Ex) (hr : rule ∈ cubicCoefs) (h1 : RuleGives env locals polyHeads rule (callP "solveCubic" [P, .sym x]) mid)
    (h2 : RuleGives env locals polyHeads cubicRule mid r) (d c b a : ℂ) (hd : d ≠ 0) (hrad : cubicRad d c b a ≠ 0)
    (hp : IsFunction V x P (fun z => d * z ^ 3 + c * z ^ 2 + b * z + a)) :
    SolutionsOf V x (fun z => d * z ^ 3 + c * z ^ 2 + b * z + a) d r := by
  obtain ⟨ss, v1, v2⟩ := cubic_values hd hrad
  obtain ⟨D, C, B, A, rfl, f1, f2, f3, f4⟩ := cubic_read V env locals hE hL x hx hfree hr h1 h2 hp
  exact solutions_of hV hx (fun z hz => v1 _ hz _ _ _ _ (f1 z) (f2 z) (f3 z) (f4 z)) v2

omit hV in
/-- The coefficients of a polynomial of degree 4. -/
theorem quartic_read {P mid r : Ex} {rule : Ex × Ex} (hr : rule ∈ quarticCoefs) (h1 : RuleGives env locals polyHeads rule (callP "solveQuartic" [P, .sym x]) mid)
    (h2 : RuleGives env locals polyHeads quarticRule mid r) {e d c b a : ℂ} (hp : IsFunction V x P (fun z => e * z ^ 4 + d * z ^ 3 + c * z ^ 2 + b * z + a)) :
    ∃ E D C B A, r = sols (.sym x) (quarticSols E D C B A) ∧ IsFunction V x E (fun _ => e) ∧ IsFunction V x D (fun _ => d) ∧ IsFunction V x C (fun _ => c) ∧
      IsFunction V x B (fun _ => b) ∧ IsFunction V x A (fun _ => a) := by
  simp only [quarticCoefs, List.mem_cons, List.not_mem_nil, or_false] at hr
  rcases hr with rfl | rfl
  · obtain ⟨ρ, u1, u2, u3, u4, u5, u6⟩ := coef_rule hE hfree (by decide) (by decide) (epatB_sound (n := 9) (by decide +kernel)) (fpat_sums hE (n := 9) (by decide +kernel))
      (by decide +kernel) (by decide +kernel) (by decide +kernel) h1
    rw [subst_priv (u1 _ (by decide))] at u6
    obtain rfl := yields_call hL (by decide) u6
    obtain ⟨rfl, n1, n2, n3, n4, n5⟩ := quartic_formula hE hL h2
    rw [subst_x u2]
    have hP := function_congr u5 hp
    rw [fill_add5 _ _ _ _ _ _ (by decide +kernel), fill_term u2, fill_term u2, fill_term u2, fill_term1 u2, fill_opt] at hP
    obtain ⟨as, k1, k2⟩ := poly_coefs hx (As := [_, _, _, _, _]) (ns := [4, 3, 2, 1, 0])
      (.cons (.pow le24) (.cons (.pow le23) (.cons (.pow le_rfl) (.cons .one (.cons .const .nil))))) rfl (all5 n1 n2 n3 n4 n5)
      (all5 (u4 _ (by decide)) (u4 _ (by decide)) (u4 _ (by decide)) (u4 _ (by decide)) (u4 _ (by decide))) hP
    simp only [List.forall₂_cons_left_iff, List.forall₂_nil_left_iff] at k1
    obtain ⟨e', _, f0, ⟨d', _, f1, ⟨c', _, f2, ⟨b', _, f3, ⟨a', _, f4, rfl, rfl⟩, rfl⟩, rfl⟩, rfl⟩, rfl⟩ := k1
    obtain ⟨rfl, rfl, rfl, rfl, rfl⟩ := coefs4 (e' := e') (d' := d') (c' := c') (b' := b') (a' := a') (fun z => by rw [k2 z]; simp; ring)
    exact ⟨_, _, _, _, _, rfl, f0, f1, f2, f3, f4⟩
  · obtain ⟨ρ, u1, u2, u3, u4, u5, u6⟩ := coef_rule hE hfree (by decide) (by decide) (epatB_sound (n := 9) (by decide +kernel)) (fpat_sums hE (n := 9) (by decide +kernel))
      (by decide +kernel) (by decide +kernel) (by decide +kernel) h1
    rw [subst_priv (u1 _ (by decide))] at u6
    obtain rfl := yields_call hL (by decide) u6
    simp only [List.map_cons, List.map_nil, subst_int] at h2
    obtain ⟨rfl, n1, n2, n3, n4, n5⟩ := quartic_formula hE hL h2
    rw [subst_x u2]
    have hP := function_congr u5 hp
    rw [fill_add3 _ _ _ _ (by decide +kernel), fill_term u2, fill_term u2, fill_any] at hP
    obtain ⟨as, k1, k2⟩ := poly_coefs hx (As := [_, _, _]) (ns := [4, 3, 0]) (.cons (.pow le24) (.cons (.pow le23) (.cons .const .nil))) rfl (all3 n1 n2 n5)
      (all3 (u4 _ (by decide)) (u4 _ (by decide)) (u4 _ (by decide))) hP
    simp only [List.forall₂_cons_left_iff, List.forall₂_nil_left_iff] at k1
    obtain ⟨e', _, f0, ⟨d', _, f1, ⟨a', _, f4, rfl, rfl⟩, rfl⟩, rfl⟩ := k1
    obtain ⟨rfl, rfl, rfl, rfl, rfl⟩ := coefs4 (e' := e') (d' := d') (c' := 0) (b' := 0) (a' := a') (fun z => by rw [k2 z]; simp; ring)
    exact ⟨_, _, _, _, _, rfl, f0, f1, fun _ => den_0, fun _ => den_0, f4⟩

/-- C103. For every expression that is `e x^4 + d x^3 + c x^2 + b x + a` with `e` not 0, the rules of `Solve` give its four zeros, with
their multiplicity, if the numbers below the cube root and the first square root are not 0. -/
theorem C103_quartic_partial (P mid r : Ex) (rule : Ex × Ex) (hr : rule ∈ quarticCoefs) (h1 : RuleGives env locals polyHeads rule (callP "solveQuartic" [P, .sym x]) mid)
    (h2 : RuleGives env locals polyHeads quarticRule mid r) (e d c b a : ℂ) (he : e ≠ 0) (hrad : quarticRad e d c b a ≠ 0) (hroot : quarticRoot e d c b a ≠ 0)
    (hp : IsFunction V x P (fun z => e * z ^ 4 + d * z ^ 3 + c * z ^ 2 + b * z + a)) :
    SolutionsOf V x (fun z => e * z ^ 4 + d * z ^ 3 + c * z ^ 2 + b * z + a) e r := by
  obtain ⟨ss, v1, v2⟩ := quartic_values he hrad hroot
  obtain ⟨E, D, C, B, A, rfl, f0, f1, f2, f3, f4⟩ := quartic_read V env locals hE hL x hx hfree hr h1 h2 hp
  exact solutions_of hV hx (fun z hz => v1 _ hz _ _ _ _ _ (f0 z) (f1 z) (f2 z) (f3 z) (f4 z)) v2

/-- C103. For every expression that is `e x^4 + d x^3` with `e` not 0, the rule of `Solve` for it gives its four zeros. -/
theorem C103_quartic_short_partial (P r : Ex) (h : RuleGives env locals polyHeads quarticShortRule (callP "solveQuartic" [P, .sym x]) r) (e d : ℂ) (he : e ≠ 0)
    (hp : IsFunction V x P (fun z => e * z ^ 4 + d * z ^ 3)) : SolutionsOf V x (fun z => e * z ^ 4 + d * z ^ 3) e r := by
  obtain ⟨ρ, u1, u2, u3, u4, u5, u6⟩ := coef_rule hE hfree (by decide) (by decide) (epatB_sound (n := 9) (by decide +kernel)) (fpat_sums hE (n := 9) (by decide +kernel))
    (by decide +kernel) (by decide +kernel) (by decide +kernel) h
  have n1 := taken_coef hE (u3 (false, "System`Times", opt (any "e")) (by decide +kernel))
  have n2 := taken_coef hE (u3 (false, "System`Times", opt (any "d")) (by decide +kernel))
  rw [subst_sols u1, subst_short u1] at u6
  obtain rfl := yields_call hL (by decide) u6
  rw [subst_x u2]
  have hP := function_congr u5 hp
  rw [fill_add2 _ _ _ (by decide +kernel), fill_term u2, fill_term u2] at hP
  obtain ⟨as, k1, k2⟩ := poly_coefs hx (As := [_, _]) (ns := [4, 3]) (.cons (.pow le24) (.cons (.pow le23) .nil)) rfl (all2 n1 n2)
    (all2 (u4 _ (by decide)) (u4 _ (by decide))) hP
  simp only [List.forall₂_cons_left_iff, List.forall₂_nil_left_iff] at k1
  obtain ⟨e', _, f0, ⟨d', _, f1, rfl, rfl⟩, rfl⟩ := k1
  obtain ⟨rfl, rfl, _⟩ := coefs4 (e := e) (d := d) (c := 0) (b := 0) (a := 0) (e' := e') (d' := d') (c' := 0) (b' := 0) (a' := 0) (fun z => by
    have := k2 z
    simp at this
    linear_combination this)
  refine solutions_of hV hx (ss := [0, 0, 0, -(d / e)]) (fun z hz => .cons den_0 (.cons den_0 (.cons den_0 (.cons (den_neg (den_dv (f1 z) (f0 z) he)) .nil)))) ?_
  intro z
  simp only [List.map_cons, List.map_nil, List.prod_cons, List.prod_nil, mul_one]
  field_simp
  ring

/-- Refutation of the unrestricted claim. If the number below the cube root is 0, none of the three solutions of the equation has a value: all contain a
division by 0. -/
theorem C103_cubic_wrong (P mid r : Ex) (rule : Ex × Ex) (hr : rule ∈ cubicCoefs) (h1 : RuleGives env locals polyHeads rule (callP "solveCubic" [P, .sym x]) mid)
    (h2 : RuleGives env locals polyHeads cubicRule mid r) (d c b a : ℂ) (hrad : cubicRad d c b a = 0) (hp : IsFunction V x P (fun z => d * z ^ 3 + c * z ^ 2 + b * z + a)) :
    ∃ es, es.length = 3 ∧ r = sols (.sym x) es ∧ ∀ s ∈ es, ∀ z, NoValue (V.put x z) s := by
  obtain ⟨D, C, B, A, rfl, f1, f2, f3, f4⟩ := cubic_read V env locals hE hL x hx hfree hr h1 h2 hp
  exact ⟨_, rfl, rfl, fun s hs z => cubic_noValue (put_standard hV hx z) (f1 z) (f2 z) (f3 z) (f4 z) hrad s hs⟩

/-- Refutation of the unrestricted claim. If the number below the cube root, or that below the first square root, is 0, none of the four solutions of the
equation has a value. -/
theorem C103_quartic_wrong (P mid r : Ex) (rule : Ex × Ex) (hr : rule ∈ quarticCoefs) (h1 : RuleGives env locals polyHeads rule (callP "solveQuartic" [P, .sym x]) mid)
    (h2 : RuleGives env locals polyHeads quarticRule mid r) (e d c b a : ℂ) (he : e ≠ 0) (hrad : quarticRad e d c b a = 0 ∨ quarticRoot e d c b a = 0)
    (hp : IsFunction V x P (fun z => e * z ^ 4 + d * z ^ 3 + c * z ^ 2 + b * z + a)) :
    ∃ es, es.length = 4 ∧ r = sols (.sym x) es ∧ ∀ s ∈ es, ∀ z, NoValue (V.put x z) s := by
  obtain ⟨E, D, C, B, A, rfl, f0, f1, f2, f3, f4⟩ := quartic_read V env locals hE hL x hx hfree hr h1 h2 hp
  exact ⟨_, rfl, rfl, fun s hs z => quartic_noValue (put_standard hV hx z) (f0 z) (f1 z) (f2 z) (f3 z) (f4 z) he hrad s hs⟩
end

/-! ### When the numbers below the roots are 0 -/

theorem root2_sq_real {q : ℝ} (h : q ≤ 0) : (((q : ℂ)) ^ 2) ^ ((1 : ℂ) / 2) = -q := by
  rcases h.eq_or_lt with rfl | h
  · rw [Complex.ofReal_zero, zero_pow two_ne_zero, zero_half, neg_zero]
  · rw [← neg_sq, one_div, Complex.sq_cpow_two_inv (by simpa using h)]

/-- C103. The hypothesis on cubic polynomials holds whenever `c^2` is not `3 b d`, that is, unless the polynomial is `d (z - s)^3 + t`. -/
theorem C103_cubic_condition (d c b a : ℂ) (h : c ^ 2 ≠ 3 * b * d) : cubicRad d c b a ≠ 0 := by
  intro h0
  rw [cubicRad] at h0
  have hS := root2_sq (4 * (-c ^ 2 + 3 * b * d) ^ 3 + (-2 * c ^ 3 + 9 * b * c * d - 27 * a * d ^ 2) ^ 2)
  rw [eq_neg_of_add_eq_zero_right h0] at hS
  have h1 : (-c ^ 2 + 3 * b * d) ^ 3 = 0 := by linear_combination -hS / 4
  have h2 := pow_eq_zero_iff (three_ne_zero) |>.1 h1
  exact h (by linear_combination -h2)

/-- For real coefficients the hypothesis fails exactly for the polynomials `d (z - s)^3 + t` with `t d >= 0`. -/
theorem C103_cubic_exact (d c b a : ℝ) : cubicRad d c b a = 0 ↔ c ^ 2 = 3 * b * d ∧ c ^ 3 ≤ 27 * a * d ^ 2 := by
  constructor
  · intro h
    have h1 : ((c : ℂ)) ^ 2 = 3 * b * d := by
      by_contra h'
      exact C103_cubic_condition _ _ _ _ h' h
    have h2 : c ^ 2 = 3 * b * d := by exact_mod_cast h1
    refine ⟨h2, ?_⟩
    by_contra h3
    rw [not_le] at h3
    rw [cubicRad] at h
    have e1 : (-2 * (c : ℂ) ^ 3 + 9 * b * c * d - 27 * a * d ^ 2) = (((c ^ 3 - 27 * a * d ^ 2 : ℝ)) : ℂ) := by
      push_cast
      linear_combination -3 * (c : ℂ) * h1
    have e2 : (-(c : ℂ) ^ 2 + 3 * b * d) = 0 := by linear_combination -h1
    rw [e1, e2, zero_pow three_ne_zero, mul_zero, zero_add, one_div, Complex.sq_cpow_two_inv (by simp only [Complex.ofReal_re]; linarith)] at h
    have h4 : (c ^ 3 - 27 * a * d ^ 2) + (c ^ 3 - 27 * a * d ^ 2) = 0 := by exact_mod_cast h
    linarith
  · rintro ⟨h1, h2⟩
    rw [cubicRad]
    have h1' : ((c : ℂ)) ^ 2 = 3 * b * d := by exact_mod_cast h1
    have e1 : (-2 * (c : ℂ) ^ 3 + 9 * b * c * d - 27 * a * d ^ 2) = (((c ^ 3 - 27 * a * d ^ 2 : ℝ)) : ℂ) := by
      push_cast
      linear_combination -3 * (c : ℂ) * h1'
    have e2 : (-(c : ℂ) ^ 2 + 3 * b * d) = 0 := by linear_combination -h1'
    rw [e1, e2, zero_pow three_ne_zero, mul_zero, zero_add, root2_sq_real (by linarith)]
    ring

/-- C103. The hypotheses on polynomials of degree 4 hold whenever `c^2 - 3 b d + 12 a e` and `d^3 - 4 c d e + 8 b e^2` are not 0. -/
theorem C103_quartic_condition (e d c b a : ℂ) (he : e ≠ 0) (h1 : c ^ 2 - 3 * b * d + 12 * a * e ≠ 0) (h2 : d ^ 3 - 4 * c * d * e + 8 * b * e ^ 2 ≠ 0) :
    quarticRad e d c b a ≠ 0 ∧ quarticRoot e d c b a ≠ 0 := by
  have hS := root2_sq (-4 * (c ^ 2 - 3 * b * d + 12 * a * e) ^ 3 + (2 * c ^ 3 - 9 * b * c * d + 27 * a * d ^ 2 + 27 * b ^ 2 * e - 72 * a * c * e) ^ 2)
  have hR : quarticRad e d c b a ≠ 0 := by
    intro h0
    rw [quarticRad] at h0
    rw [eq_neg_of_add_eq_zero_right h0] at hS
    have h3 : (c ^ 2 - 3 * b * d + 12 * a * e) ^ 3 = 0 := by linear_combination hS / 4
    exact h1 (pow_eq_zero_iff three_ne_zero |>.1 h3)
  refine ⟨hR, fun h0 => h2 ?_⟩
  have hr3 := root3_cube (quarticRad e d c b a)
  have hk3 := root3_cube 2
  have hr0 := root3_ne hR
  have hk0 : (2 : ℂ) ^ ((1 : ℂ) / 3) ≠ 0 := root3_ne two_ne_zero
  rw [quarticRoot] at h0
  generalize hr : quarticRad e d c b a ^ ((1 : ℂ) / 3) = r at *
  generalize hk : (2 : ℂ) ^ ((1 : ℂ) / 3) = k at *
  rw [quarticRad] at hr3
  generalize (-4 * (c ^ 2 - 3 * b * d + 12 * a * e) ^ 3 + (2 * c ^ 3 - 9 * b * c * d + 27 * a * d ^ 2 + 27 * b ^ 2 * e - 72 * a * c * e) ^ 2) ^ ((1 : ℂ) / 2) = S at *
  obtain ⟨s, hs⟩ : ∃ s, s = k * (c ^ 2 - 3 * b * d + 12 * a * e) / (3 * e * r) := ⟨_, rfl⟩
  obtain ⟨t, ht⟩ : ∃ t, t = 1 / (3 * k * e) * r := ⟨_, rfl⟩
  rw [← hs, ← ht] at h0
  have hst : 9 * e ^ 2 * (s * t) = c ^ 2 - 3 * b * d + 12 * a * e := by rw [hs, ht]; field_simp; norm_num
  have ht3 : 54 * e ^ 3 * t ^ 3 = r ^ 3 := by
    rw [ht]; field_simp; linear_combination -27 * hk3
  have hs3 : 27 * e ^ 3 * s ^ 3 * r ^ 3 = 2 * (c ^ 2 - 3 * b * d + 12 * a * e) ^ 3 := by
    rw [hs]; field_simp; linear_combination 27 * (c ^ 2 - 3 * b * d + 12 * a * e) ^ 3 * hk3
  have hsum : 27 * e ^ 3 * (s ^ 3 + t ^ 3) = 2 * c ^ 3 - 9 * b * c * d + 27 * a * d ^ 2 + 27 * b ^ 2 * e - 72 * a * c * e := by
    have h3 : r ^ 3 ≠ 0 := pow_ne_zero 3 hr0
    refine mul_right_cancel₀ h3 ?_
    linear_combination hs3 + r ^ 3 / 2 * ht3 + (r ^ 3 - (2 * c ^ 3 - 9 * b * c * d + 27 * a * d ^ 2 + 27 * b ^ 2 * e - 72 * a * c * e) + S) / 2 * hr3 + hS / 2
  have h4 : 12 * e ^ 2 * (s + t) = 8 * c * e - 3 * d ^ 2 := by
    field_simp at h0
    linear_combination h0
  have h5 : (8 * c * e - 3 * d ^ 2) ^ 3 - 48 * e ^ 2 * (c ^ 2 - 3 * b * d + 12 * a * e) * (8 * c * e - 3 * d ^ 2) -
      64 * e ^ 3 * (2 * c ^ 3 - 9 * b * c * d + 27 * a * d ^ 2 + 27 * b ^ 2 * e - 72 * a * c * e) = 0 := by
    rw [← h4]
    linear_combination 64 * e ^ 3 * hsum + 48 * e ^ 2 * (12 * e ^ 2 * (s + t)) * hst
  have h6 : (d ^ 3 - 4 * c * d * e + 8 * b * e ^ 2) ^ 2 = 0 := by linear_combination -h5 / 27
  exact pow_eq_zero_iff two_ne_zero |>.1 h6

/-! ### Examples -/

/-- Conditions decided without evaluation. -/
def solveTruth : Ex → Bool
  | .expr [.sym s, a, b] => s == "System`FreeQ" && !(pieces a).contains b
  | _ => false

/-- The attributes and default values of the arithmetic functions. -/
def solveEnv : MEnv where
  flat := fun s => s == "System`Plus" || s == "System`Times"
  orderless := fun s => s == "System`Plus" || s == "System`Times"
  oneIdentity := fun s => s == "System`Plus" || s == "System`Times" || s == "System`Power"
  dflt := fun s => if s = "System`Plus" then some (.int 0) else if s = "System`Times" ∨ s = "System`Power" then some (.int 1) else none
  isTrue := solveTruth

instance : solveEnv.Exact where
  exact := by
    intro s d h
    simp only [solveEnv] at h
    split at h
    · cases h; rfl
    · split at h
      · cases h; rfl
      · cases h

theorem solveEnv_ok : ArithEnv solveEnv solveFns where
  plus := by decide
  times := by decide
  power := by decide
  plain := by decide

theorem solveTruth_free (x : String) : FreeOk solveEnv.isTrue x := by
  intro a h
  simpa [solveEnv, solveTruth, S] using h

theorem noLocals : LocalsOk (fun _ => none) := fun _ _ _ => rfl

theorem gives_of {rule : Ex × Ex} {e r : Ex} (h0 : noReal e = true) (h1 : replace solveEnv (fun _ => none) 60 60 rule.1 rule.2 e = some (some r))
    (h2 : clashFreeAll solveEnv polyHeads 60 rule.1 e = true) : RuleGives solveEnv (fun _ => none) polyHeads rule e r :=
  ⟨h0, 60, 60, h1, clashFreeAll_sound h2⟩

def sx : Ex := .sym "Global`x"

/-- `2 + 3 x + x^2` -/
def poly2 : Ex := add [.int 2, mul [.int 3, sx], pow sx (.int 2)]
/-- `7 + 3 x - 3 x^2 + x^3`, which is `8 + (x - 1)^3` -/
def poly3 : Ex := add [.int 7, mul [.int 3, sx], mul [.int (-3), pow sx (.int 2)], pow sx (.int 3)]
/-- `1 + x + x^3` -/
def poly3' : Ex := add [.int 1, sx, pow sx (.int 3)]
/-- `5 + x^3 + x^4` -/
def poly4 : Ex := add [.int 5, pow sx (.int 3), pow sx (.int 4)]
/-- `2 x^3 + x^4` -/
def poly4' : Ex := add [mul [.int 2, pow sx (.int 3)], pow sx (.int 4)]
/-- `1 + x^2 + x^4` -/
def poly4'' : Ex := add [.int 1, pow sx (.int 2), pow sx (.int 4)]

theorem poly2_gives : RuleGives solveEnv (fun _ => none) polyHeads (quadraticCoefs[0]) (callP "solveQuadratic" [poly2, sx]) (callP "solveQuadratic" [.int 1, .int 3, .int 2, sx]) :=
  gives_of (by decide) (by decide +kernel) (by decide +kernel)
theorem poly3_gives : RuleGives solveEnv (fun _ => none) polyHeads (cubicCoefs[0]) (callP "solveCubic" [poly3, sx]) (callP "solveCubic" [.int 1, .int (-3), .int 3, .int 7, sx]) :=
  gives_of (by decide) (by decide +kernel) (by decide +kernel)
theorem poly3'_gives : RuleGives solveEnv (fun _ => none) polyHeads (cubicCoefs[2]) (callP "solveCubic" [poly3', sx]) (callP "solveCubic" [.int 1, .int 0, .int 1, .int 1, sx]) :=
  gives_of (by decide) (by decide +kernel) (by decide +kernel)
theorem poly4_gives : RuleGives solveEnv (fun _ => none) polyHeads (quarticCoefs[1]) (callP "solveQuartic" [poly4, sx])
    (callP "solveQuartic" [.int 1, .int 1, .int 0, .int 0, .int 5, sx]) := gives_of (by decide) (by decide +kernel) (by decide +kernel)
theorem poly4'_gives : RuleGives solveEnv (fun _ => none) polyHeads quarticShortRule (callP "solveQuartic" [poly4', sx]) (sols sx (quarticShortSols (.int 1) (.int 2))) :=
  gives_of (by decide) (by decide +kernel) (by decide +kernel)
theorem quadratic_gives : RuleGives solveEnv (fun _ => none) polyHeads quadraticRule (callP "solveQuadratic" [.int 1, .int 3, .int 2, sx])
    (sols sx (quadraticSols (.int 1) (.int 3) (.int 2))) := gives_of (by decide) (by decide +kernel) (by decide +kernel)
theorem cubic_gives : RuleGives solveEnv (fun _ => none) polyHeads cubicRule (callP "solveCubic" [.int 1, .int (-3), .int 3, .int 7, sx])
    (sols sx (cubicSols (.int 1) (.int (-3)) (.int 3) (.int 7))) := gives_of (by decide) (by decide +kernel) (by decide +kernel)
theorem cubic'_gives : RuleGives solveEnv (fun _ => none) polyHeads cubicRule (callP "solveCubic" [.int 1, .int 0, .int 1, .int 1, sx])
    (sols sx (cubicSols (.int 1) (.int 0) (.int 1) (.int 1))) := gives_of (by decide) (by decide +kernel) (by decide +kernel)
theorem quartic_gives : RuleGives solveEnv (fun _ => none) polyHeads quarticRule (callP "solveQuartic" [.int 1, .int 1, .int 0, .int 0, .int 5, sx])
    (sols sx (quarticSols (.int 1) (.int 1) (.int 0) (.int 0) (.int 5))) := gives_of (by decide) (by decide +kernel) (by decide +kernel)

theorem sx_var : isVariable "Global`x" := by unfold isVariable; decide

section
variable {V : Interp}
local notation "gx'" => "Global`x"
theorem fun_const (n : ℤ) : IsFunction V gx' (.int n) (fun _ => n) := fun _ => den_int n
theorem fun_x : IsFunction V gx' sx (fun z => z) := fun z => den_var sx_var z
theorem fun_pow {n : Nat} (hn : n ≠ 0) : IsFunction V gx' (pow sx (.int n)) (fun z => z ^ n) := fun z =>
  den_pow (den_var sx_var z) (den_int _) (by simpa using powValue_natCast hn)

theorem poly2_fun : IsFunction V gx' poly2 (fun z => 1 * z ^ 2 + 3 * z + 2) := fun z =>
  den_eq (den_add3 (fun_const 2 z) (den_mul2 (fun_const 3 z) (fun_x z)) (fun_pow two_ne_zero z)) (by push_cast; ring)
theorem poly3_fun : IsFunction V gx' poly3 (fun z => (1 : ℝ) * z ^ 3 + (-3 : ℝ) * z ^ 2 + (3 : ℝ) * z + (7 : ℝ)) := fun z =>
  den_eq (den_add4 (fun_const 7 z) (den_mul2 (fun_const 3 z) (fun_x z)) (den_mul2 (fun_const (-3) z) (fun_pow two_ne_zero z)) (fun_pow three_ne_zero z)) (by push_cast; ring)
theorem poly3'_fun : IsFunction V gx' poly3' (fun z => 1 * z ^ 3 + 0 * z ^ 2 + 1 * z + 1) := fun z =>
  den_eq (den_add3 (fun_const 1 z) (fun_x z) (fun_pow three_ne_zero z)) (by push_cast; ring)
theorem poly4_fun : IsFunction V gx' poly4 (fun z => 1 * z ^ 4 + 1 * z ^ 3 + 0 * z ^ 2 + 0 * z + 5) := fun z =>
  den_eq (den_add3 (fun_const 5 z) (fun_pow three_ne_zero z) (fun_pow four_ne_zero z)) (by push_cast; ring)
theorem poly4'_fun : IsFunction V gx' poly4' (fun z => 1 * z ^ 4 + 2 * z ^ 3) := fun z =>
  den_eq (den_add2 (den_mul2 (fun_const 2 z) (fun_pow three_ne_zero z)) (fun_pow four_ne_zero z)) (by push_cast; ring)
end

/-- `Solve[x^2 + 3 x + 2 == 0, x]` -/
example (V : Interp) (hV : V.Standard) : SolutionsOf V "Global`x" (fun z => 1 * z ^ 2 + 3 * z + 2) 1 (sols sx (quadraticSols (.int 1) (.int 3) (.int 2))) :=
  C103_quadratic_partial V hV solveEnv _ solveEnv_ok noLocals _ sx_var (solveTruth_free _) poly2 _ _ _ (by decide) poly2_gives quadratic_gives _ _ _ one_ne_zero poly2_fun
/-- `Solve[x^3 + x + 1 == 0, x]` -/
example (V : Interp) (hV : V.Standard) : SolutionsOf V "Global`x" (fun z => 1 * z ^ 3 + 0 * z ^ 2 + 1 * z + 1) 1 (sols sx (cubicSols (.int 1) (.int 0) (.int 1) (.int 1))) :=
  C103_cubic_partial V hV solveEnv _ solveEnv_ok noLocals _ sx_var (solveTruth_free _) poly3' _ _ _ (by decide) poly3'_gives cubic'_gives _ _ _ _ one_ne_zero
    (C103_cubic_condition _ _ _ _ (by norm_num)) poly3'_fun
/-- `Solve[x^4 + x^3 + 5 == 0, x]` -/
example (V : Interp) (hV : V.Standard) :
    SolutionsOf V "Global`x" (fun z => 1 * z ^ 4 + 1 * z ^ 3 + 0 * z ^ 2 + 0 * z + 5) 1 (sols sx (quarticSols (.int 1) (.int 1) (.int 0) (.int 0) (.int 5))) :=
  C103_quartic_partial V hV solveEnv _ solveEnv_ok noLocals _ sx_var (solveTruth_free _) poly4 _ _ _ (by decide) poly4_gives quartic_gives _ _ _ _ _ one_ne_zero
    (C103_quartic_condition _ _ _ _ _ one_ne_zero (by norm_num) (by norm_num)).1 (C103_quartic_condition _ _ _ _ _ one_ne_zero (by norm_num) (by norm_num)).2 poly4_fun
/-- `Solve[x^4 + 2 x^3 == 0, x]` -/
example (V : Interp) (hV : V.Standard) : SolutionsOf V "Global`x" (fun z => 1 * z ^ 4 + 2 * z ^ 3) 1 (sols sx (quarticShortSols (.int 1) (.int 2))) :=
  C103_quartic_short_partial V hV solveEnv _ solveEnv_ok noLocals _ sx_var (solveTruth_free _) poly4' _ poly4'_gives _ _ one_ne_zero poly4'_fun

/-- Refutation of the unrestricted claim. `Solve[x^3 - 3 x^2 + 3 x + 7 == 0, x]` (the number -1 is a solution) gives three expressions without value. -/
theorem C103_wrong_cube (V : Interp) (hV : V.Standard) :
    (1 : ℝ) * (-1 : ℂ) ^ 3 + (-3 : ℝ) * (-1) ^ 2 + (3 : ℝ) * (-1) + (7 : ℝ) = 0 ∧
    ∃ es, es.length = 3 ∧ sols sx (cubicSols (.int 1) (.int (-3)) (.int 3) (.int 7)) = sols sx es ∧ ∀ s ∈ es, ∀ z, NoValue (V.put "Global`x" z) s :=
  ⟨by push_cast; norm_num, C103_cubic_wrong V hV solveEnv _ solveEnv_ok noLocals _ sx_var (solveTruth_free _) poly3 _ _ _ (by decide) poly3_gives cubic_gives _ _ _ _
    ((C103_cubic_exact 1 (-3) 3 7).2 (by norm_num)) poly3_fun⟩

/-- Refutation of the unrestricted claim. None of the rules of `Solve` for degree 4 applies to `1 + x^2 + x^4`. -/
theorem C103_wrong_biquadratic : ∀ rule ∈ quarticCoefs ++ [quarticShortRule], replace solveEnv (fun _ => none) 60 60 rule.1 rule.2 (callP "solveQuartic" [poly4'', sx]) = some none := by
  decide +kernel

/-- `1 - 4 x + 6 x^2 - 4 x^3 + x^4`, which is `(x - 1)^4` -/
def poly4q : Ex := add [.int 1, mul [.int (-4), sx], mul [.int 6, pow sx (.int 2)], mul [.int (-4), pow sx (.int 3)], pow sx (.int 4)]
theorem poly4q_gives : RuleGives solveEnv (fun _ => none) polyHeads (quarticCoefs[0]) (callP "solveQuartic" [poly4q, sx])
    (callP "solveQuartic" [.int 1, .int (-4), .int 6, .int (-4), .int 1, sx]) := gives_of (by decide) (by decide +kernel) (by decide +kernel)
theorem quarticq_gives : RuleGives solveEnv (fun _ => none) polyHeads quarticRule (callP "solveQuartic" [.int 1, .int (-4), .int 6, .int (-4), .int 1, sx])
    (sols sx (quarticSols (.int 1) (.int (-4)) (.int 6) (.int (-4)) (.int 1))) := gives_of (by decide) (by decide +kernel) (by decide +kernel)
theorem poly4q_fun (V : Interp) : IsFunction V "Global`x" poly4q (fun z => 1 * z ^ 4 + -4 * z ^ 3 + 6 * z ^ 2 + -4 * z + 1) := fun z =>
  den_eq (den_add5 (fun_const 1 z) (den_mul2 (fun_const (-4) z) (fun_x z)) (den_mul2 (fun_const 6 z) (fun_pow two_ne_zero z)) (den_mul2 (fun_const (-4) z) (fun_pow three_ne_zero z))
    (fun_pow four_ne_zero z)) (by push_cast; ring)

/-- Refutation of the unrestricted claim. `Solve[x^4 - 4 x^3 + 6 x^2 - 4 x + 1 == 0, x]` (the number 1 is a solution) gives four expressions without value. -/
theorem C103_wrong_fourth (V : Interp) (hV : V.Standard) : (1 : ℂ) * 1 ^ 4 + -4 * 1 ^ 3 + 6 * 1 ^ 2 + -4 * 1 + 1 = 0 ∧
    ∃ es, es.length = 4 ∧ sols sx (quarticSols (.int 1) (.int (-4)) (.int 6) (.int (-4)) (.int 1)) = sols sx es ∧ ∀ s ∈ es, ∀ z, NoValue (V.put "Global`x" z) s :=
  ⟨by norm_num, C103_quartic_wrong V hV solveEnv _ solveEnv_ok noLocals _ sx_var (solveTruth_free _) poly4q _ _ _ (by decide) poly4q_gives quarticq_gives _ _ _ _ _ one_ne_zero
    (.inl (by
      rw [quarticRad, show (-4 * ((6 : ℂ) ^ 2 - 3 * -4 * -4 + 12 * 1 * 1) ^ 3 + (2 * 6 ^ 3 - 9 * -4 * 6 * -4 + 27 * 1 * (-4) ^ 2 + 27 * (-4) ^ 2 * 1 - 72 * 1 * 6 * 1) ^ 2) = 0 by norm_num,
        zero_half]
      norm_num)) (poly4q_fun V)⟩

end Expreduce
