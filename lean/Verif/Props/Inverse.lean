import Verif.Proofs.InverseRules
import Verif.Props.Solve

/-! Property C104: `Inverse`. -/

namespace Expreduce
open Ex Shipped

/-- The functions of the rules. -/
def inverseFns : List String := ["System`Inverse", "System`List"]

theorem inverse_rule {env : MEnv} [env.Exact] {locals : Ex → Option Ex} (hE : ArithEnv env inverseFns) (hL : LocalsOk locals) {names : List (List String)}
    {rows : List (List Ex)} {M : List (List Ex)} {r : Ex} (hep : EPat (held (call "Inverse" [gridPat names])))
    (hb : solveConsts.all (fun s => !(patNames (held (call "Inverse" [gridPat names]))).contains s) = true)
    (h : RuleGives env locals polyHeads (def_ (call "Inverse" [gridPat names]) (list (rows.map list))) (call "Inverse" [list (M.map list)]) r) :
    ∃ ρ, NotBound ρ ∧ List.Forall₂ (List.Forall₂ (fun y c => subst ρ (var y) = c)) names M ∧ r = list ((rows.map (List.map (subst ρ))).map list) := by
  obtain ⟨ρ, h1, h2, h3, h4⟩ := ruleGives_match hep h
  have hu := notBound_of h3 hb
  refine ⟨ρ, hu, ?_, ?_⟩
  · refine (grid_match hE (by decide) (by decide) h1 h2).imp (fun a b hab => hab.imp (fun y c hy => ?_))
    simp [var, subst, hy.1]
  · rw [subst_grid hu] at h4
    exact yields_call hL (by decide) h4

theorem ofFn_one {α : Type _} (f : Fin 1 → α) : List.ofFn f = [f 0] := by simp
theorem ofFn_two {α : Type _} (f : Fin 2 → α) : List.ofFn f = [f 0, f 1] := by simp
theorem ofFn_three {α : Type _} (f : Fin 3 → α) : List.ofFn f = [f 0, f 1, f 2] := by simp [List.ofFn_succ]

section
variable (V : Interp) (env : MEnv) [env.Exact] (locals : Ex → Option Ex) (hE : ArithEnv env inverseFns) (hL : LocalsOk locals)
include hE hL

/-- C104. If one of the rules of `Inverse` applies to a matrix, of any size, with the values `m` and gives `r`, then `r` is a matrix of the same size; if `m`
is invertible, the values of `r` are those of the inverse matrix, and if not, no entry of `r` has a value. -/
theorem C104_inverse_partial {n : Nat} (M : Fin n → Fin n → Ex) (m : Matrix (Fin n) (Fin n) ℂ) (r : Ex) (rule : Ex × Ex) (hr : rule ∈ inverseRules) (hM : MatrixValues V M m)
    (h : RuleGives env locals polyHeads rule (call "Inverse" [matrixOf M]) r) :
    ∃ R : Fin n → Fin n → Ex, r = matrixOf R ∧ (m.det ≠ 0 → MatrixValues V R m⁻¹) ∧ (m.det = 0 → ∀ i j, NoValue V (R i j)) := by
  simp only [inverseRules, List.mem_cons, List.not_mem_nil, or_false] at hr
  rcases hr with rfl | rfl | rfl
  · obtain ⟨ρ, hu, hf, rfl⟩ := inverse_rule (names := [["a"]]) hE hL (epatB_sound (n := 9) (by decide +kernel)) (by decide +kernel) h
    have hn : n = 1 := by simpa using hf.length_eq.symm
    subst hn
    rw [ofFn_one, ofFn_one] at hf
    simp only [List.forall₂_cons, List.forall₂_nil_left_iff, and_true] at hf
    rw [subst_inverse1 hu, hf]
    have h00 := hM 0 0
    have hdet : m.det = m 0 0 := Matrix.det_unique m
    refine ⟨fun _ _ => dv (.int 1) (M 0 0), by rw [matrixOf, ofFn_one, ofFn_one]; rfl, fun hd i j => ?_, fun hd i j => noValue_dv (by rw [← hd, hdet]; exact h00)⟩
    rw [Matrix.inv_def, Matrix.adjugate_subsingleton, Subsingleton.elim i 0, Subsingleton.elim j 0]
    refine den_eq (den_dv den_1 h00 (hdet ▸ hd)) ?_
    simp [hdet]
  · obtain ⟨ρ, hu, hf, rfl⟩ := inverse_rule (names := [["a", "b"], ["c", "d"]]) hE hL (epatB_sound (n := 9) (by decide +kernel)) (by decide +kernel) h
    have hn : n = 2 := by simpa using hf.length_eq.symm
    subst hn
    rw [ofFn_two, ofFn_two, ofFn_two] at hf
    simp only [List.forall₂_cons, List.forall₂_nil_left_iff, and_true] at hf
    obtain ⟨⟨e1, e2⟩, e3, e4⟩ := hf
    rw [subst_inverse2 hu, e1, e2, e3, e4]
    have hD := inverse2_values (hM 0 0) (hM 0 1) (hM 1 0) (hM 1 1)
    rw [← Matrix.det_fin_two m] at hD
    refine ⟨![![_, _], ![_, _]], by rw [matrixOf, ofFn_two, ofFn_two, ofFn_two]; rfl, fun hd => ?_, fun hd => ?_⟩
    · have hinv : m⁻¹ = m.det⁻¹ • !![m 1 1, -m 0 1; -m 1 0, m 0 0] := by rw [Matrix.inv_def, Matrix.adjugate_fin_two]; simp
      intro i j
      rw [hinv]
      fin_cases i <;> fin_cases j
      · exact den_eq (den_dv (hM 1 1) hD hd) (by simp; ring)
      · exact den_eq (den_neg (den_dv (hM 0 1) hD hd)) (by simp; ring)
      · exact den_eq (den_neg (den_dv (hM 1 0) hD hd)) (by simp; ring)
      · exact den_eq (den_dv (hM 0 0) hD hd) (by simp; ring)
    · rw [hd] at hD
      intro i j
      fin_cases i <;> fin_cases j
      · exact noValue_dv hD
      · exact noValue_neg (noValue_dv hD)
      · exact noValue_neg (noValue_dv hD)
      · exact noValue_dv hD
  · obtain ⟨ρ, hu, hf, rfl⟩ := inverse_rule (names := [["a", "b", "c"], ["d", "e", "f"], ["h", "i", "j"]]) hE hL (epatB_sound (n := 9) (by decide +kernel)) (by decide +kernel) h
    have hn : n = 3 := by simpa using hf.length_eq.symm
    subst hn
    rw [ofFn_three, ofFn_three, ofFn_three, ofFn_three] at hf
    simp only [List.forall₂_cons, List.forall₂_nil_left_iff, and_true] at hf
    obtain ⟨⟨e1, e2, e3⟩, ⟨e4, e5, e6⟩, e7, e8, e9⟩ := hf
    rw [subst_inverse3 hu, e1, e2, e3, e4, e5, e6, e7, e8, e9]
    have hD := inverse3_values (hM 0 0) (hM 0 1) (hM 0 2) (hM 1 0) (hM 1 1) (hM 1 2) (hM 2 0) (hM 2 1) (hM 2 2)
    rw [← Matrix.det_fin_three m] at hD
    refine ⟨![![_, _, _], ![_, _, _], ![_, _, _]], by rw [matrixOf, ofFn_three, ofFn_three, ofFn_three, ofFn_three]; rfl, fun hd => ?_, fun hd => ?_⟩
    · have hinv : ∀ i j, m⁻¹ i j = m.det⁻¹ * m.adjugate i j := by intro i j; rw [Matrix.inv_def]; simp
      intro i j
      rw [hinv, Matrix.adjugate_fin_succ_eq_det_submatrix]
      fin_cases i <;> fin_cases j
      · exact den_eq (den_dv (den_add2 (den_mul2 (den_neg (hM 1 2)) (hM 2 1)) (den_mul2 (hM 1 1) (hM 2 2))) hD hd) (by simp [Matrix.det_fin_two, Fin.succAbove]; ring)
      · exact den_eq (den_dv (den_sub (den_mul2 (hM 0 2) (hM 2 1)) (den_mul2 (hM 0 1) (hM 2 2))) hD hd) (by simp [Matrix.det_fin_two, Fin.succAbove]; ring)
      · exact den_eq (den_dv (den_add2 (den_mul2 (den_neg (hM 0 2)) (hM 1 1)) (den_mul2 (hM 0 1) (hM 1 2))) hD hd) (by simp [Matrix.det_fin_two, Fin.succAbove]; ring)
      · exact den_eq (den_dv (den_sub (den_mul2 (hM 1 2) (hM 2 0)) (den_mul2 (hM 1 0) (hM 2 2))) hD hd) (by simp [Matrix.det_fin_two, Fin.succAbove]; ring)
      · exact den_eq (den_dv (den_add2 (den_mul2 (den_neg (hM 0 2)) (hM 2 0)) (den_mul2 (hM 0 0) (hM 2 2))) hD hd) (by simp [Matrix.det_fin_two, Fin.succAbove]; ring)
      · exact den_eq (den_dv (den_sub (den_mul2 (hM 0 2) (hM 1 0)) (den_mul2 (hM 0 0) (hM 1 2))) hD hd) (by simp [Matrix.det_fin_two, Fin.succAbove]; ring)
      · exact den_eq (den_dv (den_add2 (den_mul2 (den_neg (hM 1 1)) (hM 2 0)) (den_mul2 (hM 1 0) (hM 2 1))) hD hd) (by simp [Matrix.det_fin_two, Fin.succAbove]; ring)
      · exact den_eq (den_dv (den_sub (den_mul2 (hM 0 1) (hM 2 0)) (den_mul2 (hM 0 0) (hM 2 1))) hD hd) (by simp [Matrix.det_fin_two, Fin.succAbove]; ring)
      · exact den_eq (den_dv (den_add2 (den_mul2 (den_neg (hM 0 1)) (hM 1 0)) (den_mul2 (hM 0 0) (hM 1 1))) hD hd) (by simp [Matrix.det_fin_two, Fin.succAbove]; ring)
    · rw [hd] at hD
      intro i j
      fin_cases i <;> fin_cases j <;> exact noValue_dv hD

/-- None of the rules applies to a matrix with more than three rows. -/
theorem C104_inverse_large {n : Nat} (M : Fin n → Fin n → Ex) (r : Ex) (rule : Ex × Ex) (hr : rule ∈ inverseRules)
    (h : RuleGives env locals polyHeads rule (call "Inverse" [matrixOf M]) r) : 1 ≤ n ∧ n ≤ 3 := by
  simp only [inverseRules, List.mem_cons, List.not_mem_nil, or_false] at hr
  rcases hr with rfl | rfl | rfl
  · obtain ⟨ρ, hu, hf, rfl⟩ := inverse_rule (names := [["a"]]) hE hL (epatB_sound (n := 9) (by decide +kernel)) (by decide +kernel) h
    have hn : n = 1 := by simpa using hf.length_eq.symm
    omega
  · obtain ⟨ρ, hu, hf, rfl⟩ := inverse_rule (names := [["a", "b"], ["c", "d"]]) hE hL (epatB_sound (n := 9) (by decide +kernel)) (by decide +kernel) h
    have hn : n = 2 := by simpa using hf.length_eq.symm
    omega
  · obtain ⟨ρ, hu, hf, rfl⟩ := inverse_rule (names := [["a", "b", "c"], ["d", "e", "f"], ["h", "i", "j"]]) hE hL (epatB_sound (n := 9) (by decide +kernel)) (by decide +kernel) h
    have hn : n = 3 := by simpa using hf.length_eq.symm
    omega
end

/-! ### Examples -/

theorem inverseEnv_ok : ArithEnv solveEnv inverseFns := { solveEnv_ok with plain := by decide }

/-- `{{1, 2}, {3, 4}}` -/
def mat2 : Fin 2 → Fin 2 → Ex := ![![.int 1, .int 2], ![.int 3, .int 4]]
/-- `{{1, 2}, {2, 4}}` -/
def mat2' : Fin 2 → Fin 2 → Ex := ![![.int 1, .int 2], ![.int 2, .int 4]]

theorem mat2_gives : RuleGives solveEnv (fun _ => none) polyHeads (inverseRules[1]) (call "Inverse" [matrixOf mat2]) (list ((inverse2 (.int 1) (.int 2) (.int 3) (.int 4)).map list)) :=
  gives_of (by decide +kernel) (by decide +kernel) (by decide +kernel)
theorem mat2'_gives : RuleGives solveEnv (fun _ => none) polyHeads (inverseRules[1]) (call "Inverse" [matrixOf mat2']) (list ((inverse2 (.int 1) (.int 2) (.int 2) (.int 4)).map list)) :=
  gives_of (by decide +kernel) (by decide +kernel) (by decide +kernel)

theorem mat2_values (V : Interp) : MatrixValues V mat2 !![1, 2; 3, 4] := by
  intro i j
  fin_cases i <;> fin_cases j <;> exact den_eq (den_int _) (by norm_num)
theorem mat2'_values (V : Interp) : MatrixValues V mat2' !![1, 2; 2, 4] := by
  intro i j
  fin_cases i <;> fin_cases j <;> exact den_eq (den_int _) (by norm_num)

/-- `Inverse[{{1, 2}, {3, 4}}]` -/
example (V : Interp) : ∃ R : Fin 2 → Fin 2 → Ex, list ((inverse2 (.int 1) (.int 2) (.int 3) (.int 4)).map list) = matrixOf R ∧ MatrixValues V R (!![1, 2; 3, 4])⁻¹ := by
  obtain ⟨R, h1, h2, _⟩ := C104_inverse_partial V solveEnv _ inverseEnv_ok noLocals mat2 _ _ _ (by decide) (mat2_values V) mat2_gives
  exact ⟨R, h1, h2 (by rw [Matrix.det_fin_two_of]; norm_num)⟩
/-- `Inverse[{{1, 2}, {2, 4}}]` has no value. -/
example (V : Interp) : ∃ R : Fin 2 → Fin 2 → Ex, list ((inverse2 (.int 1) (.int 2) (.int 2) (.int 4)).map list) = matrixOf R ∧ ∀ i j, NoValue V (R i j) := by
  obtain ⟨R, h1, _, h2⟩ := C104_inverse_partial V solveEnv _ inverseEnv_ok noLocals mat2' _ _ _ (by decide) (mat2'_values V) mat2'_gives
  exact ⟨R, h1, h2 (by rw [Matrix.det_fin_two_of]; norm_num)⟩

end Expreduce
