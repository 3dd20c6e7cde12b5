import Verif.Proofs.DiffMatch
import Mathlib.Analysis.SpecialFunctions.ExpDeriv

/-! Derivatives of functions defined mostly. -/

namespace Expreduce
open Ex Filter Topology

/-- The partial function is defined, and agrees mostly with `F`. -/
def HasFun (a : Option (ℂ → ℂ)) (F : ℂ → ℂ) : Prop := ∃ G, a = some G ∧ F =ᶠ[mostly] G

theorem HasFun.congr {a : Option (ℂ → ℂ)} {F G : ℂ → ℂ} (h : HasFun a F) (e : F =ᶠ[mostly] G) : HasFun a G := by
  obtain ⟨K, h1, h2⟩ := h
  exact ⟨K, h1, e.symm.trans h2⟩

theorem agrees_of {a b : Option (ℂ → ℂ)} (h : ∀ F, a = some F → HasFun b F) : Agrees a b := h

section
variable {V : Interp} {x : String}

theorem hasFun_list : ∀ {xs : List (Option (ℂ → ℂ))} {Fs : List (ℂ → ℂ)}, List.Forall₂ HasFun xs Fs →
    ∃ Gs : List (ℂ → ℂ), xs = Gs.map some ∧ ∀ᶠ z in mostly, Fs.map (· z) = Gs.map (· z)
  | _, _, .nil => ⟨[], rfl, Eventually.of_forall fun _ => rfl⟩
  | _, _, .cons h t => by
    obtain ⟨G, rfl, h2⟩ := h
    obtain ⟨Gs, rfl, h4⟩ := hasFun_list t
    refine ⟨G :: Gs, rfl, ?_⟩
    filter_upwards [h2, h4] with z k1 k2
    rw [List.map_cons, List.map_cons, k1, k2]

theorem hasFun_op {s : String} (hs : s ≠ "System`D") {xs : List (Option (ℂ → ℂ))} {Fs : List (ℂ → ℂ)} {G : ℂ → ℂ} (h : List.Forall₂ HasFun xs Fs)
    (hG : ∀ᶠ z in mostly, arithValue V s (Fs.map (· z)) = some (G z)) : HasFun ((funMeaning V x).op s xs) G := by
  obtain ⟨Gs, rfl, h2⟩ := hasFun_list h
  have hd : ∀ᶠ z in mostly, arithValue V s (Gs.map (· z)) = some (G z) := by
    filter_upwards [hG, h2] with z k1 k2
    rw [← k2, k1]
  have hop : (funMeaning V x).op s (Gs.map some) = lift (fun z => arithValue V s (Gs.map (· z))) := by
    simp only [funMeaning, allSome_some, Option.bind_some, funOp, if_neg hs]
  obtain ⟨K, hK⟩ := lift_def (f := fun z => arithValue V s (Gs.map (· z))) (by filter_upwards [hd] with z hz; rw [hz]; rfl)
  refine ⟨K, hop.trans hK, ?_⟩
  filter_upwards [hd, lift_some hK] with z k1 k2
  rw [k1] at k2
  exact Option.some.inj k2

theorem val_variable (hx : isVariable x) : (funMeaning V x).val (.sym x) = some (fun z => z) := by
  have : (funMeaning V x).val (.sym x) = lift (fun z => atomValue (V.put x z) (.sym x)) := rfl
  rw [this]
  refine lift_eq fun z => ?_
  have hn : x ∉ noNumber := by
    intro h
    refine hx ?_
    simp only [noNumber, List.mem_cons, List.not_mem_nil, or_false] at h ⊢
    tauto
  simp [atomValue, Interp.put, hn]

theorem hasFun_diff {a : Option (ℂ → ℂ)} {F : ℂ → ℂ} (h : HasFun a F) :
    HasFun ((funMeaning V x).op "System`D" [a, some (fun z => z)]) (deriv F) := by
  obtain ⟨G, rfl, h2⟩ := h
  refine ⟨deriv G, ?_, deriv_congr h2⟩
  simp [funMeaning, allSome, funOp, diffOp]

theorem diff_op_some {a : Option (ℂ → ℂ)} {K : ℂ → ℂ} (h : (funMeaning V x).op "System`D" [a, some (fun z => z)] = some K) :
    ∃ F, a = some F ∧ K = deriv F := by
  cases a with
  | none => simp [funMeaning, allSome] at h
  | some F =>
    refine ⟨F, rfl, ?_⟩
    simpa [funMeaning, allSome, funOp, diffOp] using h.symm

theorem hasFun_plus {a b : Option (ℂ → ℂ)} {F G : ℂ → ℂ} (h1 : HasFun a F) (h2 : HasFun b G) :
    HasFun ((funMeaning V x).op "System`Plus" [a, b]) (fun z => F z + G z) := by
  refine hasFun_op (by decide) (.cons h1 (.cons h2 .nil)) (Eventually.of_forall fun z => ?_)
  rw [arith_plus]; simp

theorem hasFun_times {a b : Option (ℂ → ℂ)} {F G : ℂ → ℂ} (h1 : HasFun a F) (h2 : HasFun b G) :
    HasFun ((funMeaning V x).op "System`Times" [a, b]) (fun z => F z * G z) := by
  refine hasFun_op (by decide) (.cons h1 (.cons h2 .nil)) (Eventually.of_forall fun z => ?_)
  rw [arith_times]; simp

theorem hasFun_times3 {a b c : Option (ℂ → ℂ)} {F G K : ℂ → ℂ} (h1 : HasFun a F) (h2 : HasFun b G) (h3 : HasFun c K) :
    HasFun ((funMeaning V x).op "System`Times" [a, b, c]) (fun z => F z * G z * K z) := by
  refine hasFun_op (by decide) (.cons h1 (.cons h2 (.cons h3 .nil))) (Eventually.of_forall fun z => ?_)
  rw [arith_times]; simp [mul_assoc]

theorem hasFun_power {a b : Option (ℂ → ℂ)} {F G K : ℂ → ℂ} (h1 : HasFun a F) (h2 : HasFun b G) (h : ∀ᶠ z in mostly, powValue (F z) (G z) = some (K z)) :
    HasFun ((funMeaning V x).op "System`Power" [a, b]) K := by
  refine hasFun_op (by decide) (.cons h1 (.cons h2 .nil)) ?_
  filter_upwards [h] with z hz
  simp only [List.map_cons, List.map_nil]
  rw [arith_pow, hz]

theorem hasFun_int (n : Int) : HasFun ((funMeaning V x).val (.int n)) (fun _ => (n : ℂ)) := by
  have : (funMeaning V x).val (.int n) = lift (fun z => atomValue (V.put x z) (.int n)) := rfl
  have h := lift_eq (f := fun z => atomValue (V.put x z) (.int n)) (F := fun _ => (n : ℂ)) (fun z => rfl)
  exact ⟨_, this.trans h, .rfl⟩

theorem arith_fn {s : String} (hs : s ∉ arithHeads) (l : List ℂ) : arithValue V s l = V.fn s l := by
  simp only [arithHeads, List.mem_cons, List.not_mem_nil, or_false, not_or] at hs
  simp [arithValue, hs]

theorem hasFun_fn {s : String} (hs : s ∉ arithHeads) (hd : s ≠ "System`D") {a : Option (ℂ → ℂ)} {F K : ℂ → ℂ} (h1 : HasFun a F) (h : ∀ᶠ z in mostly, V.fn s [F z] = some (K z)) :
    HasFun ((funMeaning V x).op s [a]) K := by
  refine hasFun_op hd (.cons h1 .nil) ?_
  filter_upwards [h] with z hz
  simp only [List.map_cons, List.map_nil]
  rw [arith_fn hs, hz]

/-! ### Rules of differentiation -/

theorem deriv_add_mostly {F G : ℂ → ℂ} (hF : Gen F) (hG : Gen G) : deriv (fun z => F z + G z) =ᶠ[mostly] fun z => deriv F z + deriv G z := by
  filter_upwards [hF, hG] with z h1 h2
  exact deriv_fun_add h1.differentiableAt h2.differentiableAt

theorem deriv_mul_mostly {F G : ℂ → ℂ} (hF : Gen F) (hG : Gen G) : deriv (fun z => F z * G z) =ᶠ[mostly] fun z => deriv F z * G z + F z * deriv G z := by
  filter_upwards [hF, hG] with z h1 h2
  exact deriv_fun_mul h1.differentiableAt h2.differentiableAt

theorem deriv_log_mostly {F : ℂ → ℂ} (hF : Gen F) (h0 : ∀ᶠ z in mostly, F z ≠ 0) : deriv (fun z => Complex.log (F z)) =ᶠ[mostly] fun z => deriv F z * (F z)⁻¹ := by
  have hL : Gen (fun z => Complex.log (F z)) := gen_log.comp hF
  filter_upwards [hF, hL, h0, mostly_nhds h0] with z h1 h2 h3 h4
  have he : (fun w => Complex.exp (Complex.log (F w))) =ᶠ[𝓝 z] F := by
    filter_upwards [h4] with w hw
    exact Complex.exp_log hw
  have h5 := (Complex.hasDerivAt_exp (Complex.log (F z))).comp z h2.differentiableAt.hasDerivAt
  have h6 : deriv F z = Complex.exp (Complex.log (F z)) * deriv (fun w => Complex.log (F w)) z := by
    rw [← Filter.EventuallyEq.deriv_eq he]
    exact h5.deriv
  rw [Complex.exp_log h3] at h6
  rw [h6]
  field_simp

theorem deriv_comp_mostly {h h' F : ℂ → ℂ} (hh : ∀ z, HasDerivAt h (h' z) z) (hF : Gen F) : deriv (fun z => h (F z)) =ᶠ[mostly] fun z => h' (F z) * deriv F z := by
  filter_upwards [hF] with z h1
  exact ((hh (F z)).comp z h1.differentiableAt.hasDerivAt).deriv

theorem deriv_pow_mostly {F G : ℂ → ℂ} (hF : Gen F) (hG : Gen G) (h0 : ∀ᶠ z in mostly, F z ≠ 0) :
    deriv (fun z => F z ^ G z) =ᶠ[mostly] fun z => F z ^ G z * (deriv G z * Complex.log (F z) + deriv F z * (F z)⁻¹ * G z) := by
  have e1 : (fun z => F z ^ G z) =ᶠ[mostly] fun z => Complex.exp (Complex.log (F z) * G z) := by
    filter_upwards [h0] with z hz
    rw [Complex.cpow_def_of_ne_zero hz]
  have hL : Gen (fun z => Complex.log (F z)) := gen_log.comp hF
  have e2 := deriv_congr e1
  have e3 := deriv_comp_mostly Complex.hasDerivAt_exp (hL.mul hG)
  filter_upwards [e1, e2, e3, deriv_mul_mostly hL hG, deriv_log_mostly hF h0] with z k1 k2 k3 k4 k5
  rw [k2, k3, k4, k5, k1]
  ring

/-- An analytic function that is not 0 on any open set is mostly not 0. -/
theorem mostly_ne_of_gen {F : ℂ → ℂ} (hF : Gen F) (h : ∀ O : Set ℂ, IsOpen O → O.Nonempty → ∃ z ∈ O, F z ≠ 0) : ∀ᶠ z in mostly, F z ≠ 0 := by
  have hopen : IsOpen {z | AnalyticAt ℂ F z ∧ F z ≠ 0} := by
    rw [isOpen_iff_mem_nhds]
    rintro z ⟨h1, h2⟩
    exact (h1.eventually_analyticAt).and (h1.continuousAt.eventually_ne h2)
  have : {z | AnalyticAt ℂ F z ∧ F z ≠ 0} ∈ mostly := by
    refine mostly_of_open hopen fun O hO hne => ?_
    obtain ⟨W, hW, hWn, hWO, hWF⟩ := mostly_open hF hO hne
    obtain ⟨z, hz, hz0⟩ := h W hW hWn
    exact ⟨z, hWO hz, hWF z hz, hz0⟩
  exact Filter.mem_of_superset this fun z hz => hz.2

end
end Expreduce
