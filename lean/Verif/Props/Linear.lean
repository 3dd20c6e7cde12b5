import Verif.Proofs.LinearRules
import Verif.Props.Solve

/-! Property C105: `Solve` and two linear equations. -/

namespace Expreduce
open Ex Shipped

theorem put_comm {V : Interp} {x y : String} (h : x ≠ y) (z w : ℂ) : (V.put x z).put y w = (V.put y w).put x z := by
  unfold Interp.put
  congr 1
  funext s
  by_cases h1 : s = y
  · subst h1; simp [h.symm]
  · simp [h1]

section
variable {V : Interp} {x y : String} (hxy : x ≠ y)
include hxy

theorem const_of2 {e : Ex} {v z w : ℂ} (hx : .sym x ∉ pieces e) (hy : .sym y ∉ pieces e) (h : ((V.put x z).put y w).Denotes e v) : IsFunction2 V x y e (fun _ _ => v) := by
  intro z' w'
  have h1 := const_of hy w h w'
  rw [put_comm hxy] at h1 ⊢
  exact const_of hx z h1 z'

theorem den_varx (hx : isVariable x) (z w : ℂ) : ((V.put x z).put y w).Denotes (.sym x) z := by
  rw [put_comm hxy]
  exact den_var hx z

/-- The coefficient of a term. -/
theorem term_of2 {A : Ex} {v : String} (hA : hasHead "System`Sequence" A = false) (h1 : .sym x ∉ pieces A) (h2 : .sym y ∉ pieces A) {z w t : ℂ}
    (h : ((V.put x z).put y w).Denotes (mul [A, .sym v]) t) : ∃ a, IsFunction2 V x y A (fun _ _ => a) := by
  obtain ⟨vs, k1, _⟩ := den_inv (s := "System`Times") (by decide) (all2 hA rfl) h
  cases k1 with
  | cons k _ => exact ⟨_, const_of2 hxy h1 h2 k⟩

/-- The coefficients of a linear form. -/
theorem form_of2 (hx : isVariable x) (hy : isVariable y) {A B : Ex} (hA : hasHead "System`Sequence" A = false) (hB : hasHead "System`Sequence" B = false)
    (a1 : .sym x ∉ pieces A) (a2 : .sym y ∉ pieces A) (b1 : .sym x ∉ pieces B) (b2 : .sym y ∉ pieces B) {a b : ℂ}
    (h : IsFunction2 V x y (add [mul [A, .sym x], mul [B, .sym y]]) (fun z w => a * z + b * w)) :
    IsFunction2 V x y A (fun _ _ => a) ∧ IsFunction2 V x y B (fun _ _ => b) := by
  obtain ⟨vs, k1, _⟩ := terms_of (by simp [noSeq_mul]) (h 0 0)
  cases k1 with
  | cons k k1 =>
    cases k1 with
    | cons k' _ =>
      obtain ⟨a', ha⟩ := term_of2 hxy hA a1 a2 k
      obtain ⟨b', hb⟩ := term_of2 hxy hB b1 b2 k'
      have hv : ∀ z w, a * z + b * w = a' * z + b' * w := fun z w =>
        den_unique (h z w) (den_add2 (den_mul2 (ha z w) (den_varx hxy hx z w)) (den_mul2 (hb z w) (den_var hy w)))
      have e1 := hv 1 0
      have e2 := hv 0 1
      simp only [mul_one, mul_zero, add_zero, zero_add] at e1 e2
      subst e1 e2
      exact ⟨ha, hb⟩
end

theorem fill_termS {ρ : String → Option Ex} {x : String} {v : String} (hx : ρ ("Private`" ++ v) = some (.sym x)) (y : String) : fill ρ (termS y v) = mul [subst ρ (var y), .sym x] := by
  cases h : ρ ("Private`" ++ y) <;> simp [termS, mul, opt, any, anyOf, call, var, S, fill, fillL, argName, testName, coreName, subst, h, hx]

theorem function2_congr {V : Interp} {x y : String} {P Q : Ex} {p : ℂ → ℂ → ℂ} (h : ∀ V : Interp, V.meaning.argVals Q = V.meaning.argVals P) (hp : IsFunction2 V x y P p) :
    IsFunction2 V x y Q p := by
  intro z w
  unfold Interp.Denotes
  rw [h]
  exact hp z w

section
variable (V : Interp) (env : MEnv) [env.Exact] (locals : Ex → Option Ex) (hE : ArithEnv env linearFns) (hL : LocalsOk locals) (x y : String)
  (hx : isVariable x) (hy : isVariable y) (hxy : x ≠ y) (hfx : FreeOk env.isTrue x) (hfy : FreeOk env.isTrue y) (hand : AndOk env.isTrue)
include hE hL hx hy hxy hfx hfy hand

omit hE hL hx hy hxy [env.Exact] in
theorem free_both {l : List Ex} (h : env.isTrue (call "And" [call "FreeQ" [list l, .sym x], call "FreeQ" [list l, .sym y]]) = true) : ∀ e ∈ l, .sym x ∉ pieces e ∧ .sym y ∉ pieces e := by
  intro e he
  obtain ⟨h1, h2⟩ := hand _ _ h
  exact ⟨fun hc => hfx _ h1 (pieces_arg (List.mem_cons_of_mem _ he) hc), fun hc => hfy _ h2 (pieces_arg (List.mem_cons_of_mem _ he) hc)⟩

/-- C105. The rule of `Solve` for two linear equations `a x + b y == c`, `d x + e y == f` gives one solution; if the determinant is not 0, its values are the only
numbers that satisfy both equations, and if it is 0, they have no value. -/
theorem C105_two_equations_partial (P1 C P2 F r : Ex) (h : RuleGives env locals polyHeads linear2Rule (call "Solve" [list [equal P1 C, equal P2 F], list [.sym x, .sym y]]) r)
    (a b c d e f : ℂ) (h1 : IsFunction2 V x y P1 (fun z w => a * z + b * w)) (h2 : IsFunction2 V x y P2 (fun z w => d * z + e * w))
    (hc : IsFunction2 V x y C (fun _ _ => c)) (hf : IsFunction2 V x y F (fun _ _ => f)) :
    ∃ s t, r = list [list [arrow (.sym x) s, arrow (.sym y) t]] ∧
      (a * e - b * d ≠ 0 → ∃ u v, IsFunction2 V x y s (fun _ _ => u) ∧ IsFunction2 V x y t (fun _ _ => v) ∧ ∀ z w, (a * z + b * w = c ∧ d * z + e * w = f) ↔ z = u ∧ w = v) ∧
      (a * e - b * d = 0 → ∀ z w, NoValue ((V.put x z).put y w) s ∧ NoValue ((V.put x z).put y w) t) := by
  obtain ⟨ρ, r1, r2, r3, r4⟩ := ruleGives_match (epatB_sound (n := 9) (by decide +kernel)) h
  have hu := notBound_of r3 (by decide +kernel)
  obtain ⟨x1, x2, x3, x4, ⟨x5, x6⟩, ⟨t1, t2⟩, v1, v2⟩ := linear_match hE (fpat_sums hE (n := 9) (by decide +kernel)) (by decide +kernel) (by decide +kernel)
    (fpat_sums hE (n := 9) (by decide +kernel)) (by decide +kernel) (by decide +kernel) r1 r2
  have na := taken_coef hE (t1 (false, "System`Times", opt (any "a")) (by decide +kernel))
  have nb := taken_coef hE (t1 (false, "System`Times", opt (any "b")) (by decide +kernel))
  have nd := taken_coef hE (t2 (false, "System`Times", opt (any "d")) (by decide +kernel))
  have ne := taken_coef hE (t2 (false, "System`Times", opt (any "e")) (by decide +kernel))
  have hvx : subst ρ (var "x") = .sym x := subst_x x1
  have hvy : subst ρ (var "y") = .sym y := by simp [var, subst, x2]
  have hvc : subst ρ (var "c") = C := by simp [var, subst, x3]
  have hvf : subst ρ (var "f") = F := by simp [var, subst, x4]
  rw [subst_ifFree2 hu, hvx, hvy] at r4
  obtain ⟨r5, r6⟩ := yields_cond r4
  have hfree := free_both env x y hfx hfy hand r5
  rw [subst_linear2 hu, hvx, hvy, hvc, hvf] at r6
  obtain rfl := yields_call hL (by decide) r6
  have k1 := function2_congr v1 h1
  have k2 := function2_congr v2 h2
  rw [fill_add2 _ _ _ (by decide +kernel), fill_termS (v := "x") x1, fill_termS (v := "y") x2] at k1 k2
  have fa := hfree (subst ρ (var "a")) (List.mem_cons_self ..)
  have fb := hfree (subst ρ (var "b")) (List.mem_cons_of_mem _ (List.mem_cons_self ..))
  have fd := hfree (subst ρ (var "d")) (List.mem_cons_of_mem _ (List.mem_cons_of_mem _ (List.mem_cons_of_mem _ (List.mem_cons_self ..))))
  have fe := hfree (subst ρ (var "e")) (List.mem_cons_of_mem _ (List.mem_cons_of_mem _ (List.mem_cons_of_mem _ (List.mem_cons_of_mem _ (List.mem_cons_self ..)))))
  obtain ⟨da, db⟩ := form_of2 hxy hx hy na nb fa.1 fa.2 fb.1 fb.2 k1
  obtain ⟨dd, de⟩ := form_of2 hxy hx hy nd ne fd.1 fd.2 fe.1 fe.2 k2
  have hdet := fun z w => den_sub (den_mul2 (db z w) (dd z w)) (den_mul2 (da z w) (de z w))
  refine ⟨_, _, rfl, fun hne => ?_, fun h0 => fun z w => ?_⟩
  · have hne' : b * d - a * e ≠ 0 := fun h => hne (by linear_combination -h)
    refine ⟨-((c * e - b * f) / (b * d - a * e)), -((-(c * d) + a * f) / (b * d - a * e)),
      fun z w => den_neg (den_dv (den_sub (den_mul2 (hc z w) (de z w)) (den_mul2 (db z w) (hf z w))) (hdet z w) hne'),
      fun z w => den_neg (den_dv (den_add2 (den_neg (den_mul2 (hc z w) (dd z w))) (den_mul2 (da z w) (hf z w))) (hdet z w) hne'), fun z w => ?_⟩
    constructor
    · rintro ⟨g1, g2⟩
      constructor
      · rw [← neg_div, eq_div_iff hne']
        linear_combination -e * g1 + b * g2
      · rw [← neg_div, eq_div_iff hne']
        linear_combination d * g1 - a * g2
    · rintro ⟨rfl, rfl⟩
      constructor
      · rw [← neg_div, ← neg_div, mul_div_assoc', mul_div_assoc', ← add_div, div_eq_iff hne']; ring
      · rw [← neg_div, ← neg_div, mul_div_assoc', mul_div_assoc', ← add_div, div_eq_iff hne']; ring
  · have h0' := den_eq (hdet z w) (show b * d - a * e = 0 by linear_combination -h0)
    exact ⟨noValue_neg (noValue_dv h0'), noValue_neg (noValue_dv h0')⟩

/-- C105. The same for `a x + b y == c`, `d x == f`. -/
theorem C105_one_variable_partial (P1 C P2 F r : Ex) (h : RuleGives env locals polyHeads linear1Rule (call "Solve" [list [equal P1 C, equal P2 F], list [.sym x, .sym y]]) r)
    (a b c d f : ℂ) (h1 : IsFunction2 V x y P1 (fun z w => a * z + b * w)) (h2 : IsFunction2 V x y P2 (fun z _ => d * z))
    (hc : IsFunction2 V x y C (fun _ _ => c)) (hf : IsFunction2 V x y F (fun _ _ => f)) :
    ∃ s t, r = list [list [arrow (.sym x) s, arrow (.sym y) t]] ∧
      (b * d ≠ 0 → ∃ u v, IsFunction2 V x y s (fun _ _ => u) ∧ IsFunction2 V x y t (fun _ _ => v) ∧ ∀ z w, (a * z + b * w = c ∧ d * z = f) ↔ z = u ∧ w = v) ∧
      (b * d = 0 → ∀ z w, NoValue ((V.put x z).put y w) t) := by
  obtain ⟨ρ, r1, r2, r3, r4⟩ := ruleGives_match (epatB_sound (n := 9) (by decide +kernel)) h
  have hu := notBound_of r3 (by decide +kernel)
  obtain ⟨x1, x2, x3, x4, ⟨x5, x6⟩, ⟨t1, t2⟩, v1, v2⟩ := linear_match hE (fpat_sums hE (n := 9) (by decide +kernel)) (by decide +kernel) (by decide +kernel)
    (fpat_sums hE (n := 9) (by decide +kernel)) (by decide +kernel) (by decide +kernel) r1 r2
  have na := taken_coef hE (t1 (false, "System`Times", opt (any "a")) (by decide +kernel))
  have nb := taken_coef hE (t1 (false, "System`Times", opt (any "b")) (by decide +kernel))
  have nd := taken_coef hE (t2 (false, "System`Times", opt (any "d")) (by decide +kernel))
  have hvx : subst ρ (var "x") = .sym x := subst_x x1
  have hvy : subst ρ (var "y") = .sym y := by simp [var, subst, x2]
  have hvc : subst ρ (var "c") = C := by simp [var, subst, x3]
  have hvf : subst ρ (var "f") = F := by simp [var, subst, x4]
  rw [subst_ifFree2 hu, hvx, hvy] at r4
  obtain ⟨r5, r6⟩ := yields_cond r4
  have hfree := free_both env x y hfx hfy hand r5
  rw [subst_linear1 hu, hvx, hvy, hvc, hvf] at r6
  obtain rfl := yields_call hL (by decide) r6
  have k1 := function2_congr v1 h1
  have k2 := function2_congr v2 h2
  rw [fill_add2 _ _ _ (by decide +kernel), fill_termS (v := "x") x1, fill_termS (v := "y") x2] at k1
  rw [fill_termS (v := "x") x1] at k2
  have fa := hfree (subst ρ (var "a")) (List.mem_cons_self ..)
  have fb := hfree (subst ρ (var "b")) (List.mem_cons_of_mem _ (List.mem_cons_self ..))
  have fd := hfree (subst ρ (var "d")) (List.mem_cons_of_mem _ (List.mem_cons_of_mem _ (List.mem_cons_of_mem _ (List.mem_cons_self ..))))
  obtain ⟨da, db⟩ := form_of2 hxy hx hy na nb fa.1 fa.2 fb.1 fb.2 k1
  obtain ⟨d', dd⟩ := term_of2 hxy nd fd.1 fd.2 (k2 0 0)
  have e1 := den_unique (k2 1 0) (den_mul2 (dd 1 0) (den_varx hxy hx 1 0))
  simp only [mul_one] at e1
  subst e1
  have hdet := fun z w => den_mul2 (db z w) (dd z w)
  refine ⟨_, _, rfl, fun hne => ?_, fun h0 => fun z w => ?_⟩
  · have hb : b ≠ 0 := left_ne_zero_of_mul hne
    have hd : d ≠ 0 := right_ne_zero_of_mul hne
    refine ⟨f / d, -((-(c * d) + a * f) / (b * d)), fun z w => den_dv (hf z w) (dd z w) hd,
      fun z w => den_neg (den_dv (den_add2 (den_neg (den_mul2 (hc z w) (dd z w))) (den_mul2 (da z w) (hf z w))) (hdet z w) hne), fun z w => ?_⟩
    constructor
    · rintro ⟨g1, g2⟩
      constructor
      · rw [eq_div_iff hd]
        linear_combination g2
      · rw [← neg_div, eq_div_iff hne]
        linear_combination d * g1 - a * g2
    · rintro ⟨rfl, rfl⟩
      constructor <;> field_simp <;> ring
  · exact noValue_neg (noValue_dv (h0 ▸ hdet z w))
end

/-! ### Examples -/

/-- Conditions decided without evaluation. -/
def linearTruth : Ex → Bool
  | .expr [.sym s, a, b] => (s == "System`FreeQ" && !(pieces a).contains b) || (s == "System`And" && solveTruth a && solveTruth b)
  | _ => false

def linearEnv : MEnv := { solveEnv with isTrue := linearTruth }

instance : linearEnv.Exact where
  exact := MEnv.Exact.exact (env := solveEnv)

theorem linearEnv_ok : ArithEnv linearEnv linearFns where
  plus := by decide
  times := by decide
  power := by decide
  plain := by decide

theorem linearTruth_free (x : String) : FreeOk linearEnv.isTrue x := by
  intro a h
  simpa [linearEnv, linearTruth, S] using h

theorem linearTruth_and : AndOk linearEnv.isTrue := by
  have key : ∀ a, solveTruth a = true → linearTruth a = true := by
    intro a h
    unfold solveTruth at h
    split at h
    · simp only [linearTruth, Bool.or_eq_true]; exact .inl h
    · cases h
  intro a b h
  simp only [linearEnv, linearTruth, S, String.reduceAppend, Bool.or_eq_true, Bool.and_eq_true, beq_iff_eq] at h
  rcases h with ⟨h, _⟩ | ⟨⟨_, h1⟩, h2⟩
  · simp at h
  · exact ⟨key a h1, key b h2⟩

/-- `{x + 2 y == 5, 3 x + 4 y == 6}` -/
def system2 : Ex := list [equal (add [sx, mul [.int 2, .sym "Global`y"]]) (.int 5), equal (add [mul [.int 3, sx], mul [.int 4, .sym "Global`y"]]) (.int 6)]
/-- `{x + 2 y == 5, 3 x == 6}` -/
def system1 : Ex := list [equal (add [sx, mul [.int 2, .sym "Global`y"]]) (.int 5), equal (mul [.int 3, sx]) (.int 6)]

theorem system2_gives : RuleGives linearEnv (fun _ => none) polyHeads linear2Rule (call "Solve" [system2, list [sx, .sym "Global`y"]])
    (sols2 sx (.sym "Global`y") (linear2Sol (.int 1) (.int 2) (.int 5) (.int 3) (.int 4) (.int 6))) :=
  ⟨by decide, 60, 60, by decide +kernel, clashFreeAll_sound (by decide +kernel)⟩
theorem system1_gives : RuleGives linearEnv (fun _ => none) polyHeads linear1Rule (call "Solve" [system1, list [sx, .sym "Global`y"]])
    (sols2 sx (.sym "Global`y") (linear1Sol (.int 1) (.int 2) (.int 5) (.int 3) (.int 6))) :=
  ⟨by decide, 60, 60, by decide +kernel, clashFreeAll_sound (by decide +kernel)⟩

theorem sy_var : isVariable "Global`y" := by unfold isVariable; decide

/-- `Solve[{x + 2 y == 5, 3 x + 4 y == 6}, {x, y}]` -/
example (V : Interp) : ∃ s t, sols2 sx (.sym "Global`y") (linear2Sol (.int 1) (.int 2) (.int 5) (.int 3) (.int 4) (.int 6)) = list [list [arrow sx s, arrow (.sym "Global`y") t]] ∧
    ∃ u v, IsFunction2 V "Global`x" "Global`y" s (fun _ _ => u) ∧ IsFunction2 V "Global`x" "Global`y" t (fun _ _ => v) ∧ ∀ z w : ℂ, (1 * z + 2 * w = 5 ∧ 3 * z + 4 * w = 6) ↔ z = u ∧ w = v := by
  have hxy : "Global`x" ≠ "Global`y" := by decide
  obtain ⟨s, t, h1, h2, _⟩ := C105_two_equations_partial V linearEnv _ linearEnv_ok noLocals "Global`x" "Global`y" sx_var sy_var hxy (linearTruth_free _) (linearTruth_free _) linearTruth_and
    _ _ _ _ _ system2_gives 1 2 5 3 4 6
    (fun z w => den_eq (den_add2 (den_varx hxy sx_var z w) (den_mul2 (den_int 2) (den_var sy_var w))) (by push_cast; ring))
    (fun z w => den_eq (den_add2 (den_mul2 (den_int 3) (den_varx hxy sx_var z w)) (den_mul2 (den_int 4) (den_var sy_var w))) (by push_cast; ring))
    (fun z w => den_eq (den_int 5) (by norm_num)) (fun z w => den_eq (den_int 6) (by norm_num))
  exact ⟨s, t, h1, h2 (by norm_num)⟩
/-- `Solve[{x + 2 y == 5, 3 x == 6}, {x, y}]` -/
example (V : Interp) : ∃ s t, sols2 sx (.sym "Global`y") (linear1Sol (.int 1) (.int 2) (.int 5) (.int 3) (.int 6)) = list [list [arrow sx s, arrow (.sym "Global`y") t]] ∧
    ∃ u v, IsFunction2 V "Global`x" "Global`y" s (fun _ _ => u) ∧ IsFunction2 V "Global`x" "Global`y" t (fun _ _ => v) ∧ ∀ z w : ℂ, (1 * z + 2 * w = 5 ∧ 3 * z = 6) ↔ z = u ∧ w = v := by
  have hxy : "Global`x" ≠ "Global`y" := by decide
  obtain ⟨s, t, h1, h2, _⟩ := C105_one_variable_partial V linearEnv _ linearEnv_ok noLocals "Global`x" "Global`y" sx_var sy_var hxy (linearTruth_free _) (linearTruth_free _) linearTruth_and
    _ _ _ _ _ system1_gives 1 2 5 3 6
    (fun z w => den_eq (den_add2 (den_varx hxy sx_var z w) (den_mul2 (den_int 2) (den_var sy_var w))) (by push_cast; ring))
    (fun z w => den_eq (den_mul2 (den_int 3) (den_varx hxy sx_var z w)) (by push_cast; ring))
    (fun z w => den_eq (den_int 5) (by norm_num)) (fun z w => den_eq (den_int 6) (by norm_num))
  exact ⟨s, t, h1, h2 (by norm_num)⟩

end Expreduce
