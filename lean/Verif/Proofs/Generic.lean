import Verif.Spec.Diff
import Mathlib.Analysis.Complex.OpenMapping
import Mathlib.Analysis.SpecialFunctions.Complex.Analytic
import Mathlib.Analysis.SpecialFunctions.Trigonometric.Deriv
import Mathlib.Analysis.Complex.CauchyIntegral

/-! Functions that are analytic at most points. -/

namespace Expreduce
open Ex Filter Topology

theorem mem_mostly {s : Set ℂ} : s ∈ mostly ↔ Dense (interior s) := Iff.rfl

/-- An open set holds mostly if it meets every nonempty open set. -/
theorem mostly_of_open {s : Set ℂ} (ho : IsOpen s) (h : ∀ O : Set ℂ, IsOpen O → O.Nonempty → (O ∩ s).Nonempty) : s ∈ mostly := by
  rw [mem_mostly, ho.interior_eq, dense_iff_inter_open]
  exact h

theorem mostly_open {p : ℂ → Prop} (h : ∀ᶠ z in mostly, p z) {O : Set ℂ} (hO : IsOpen O) (hne : O.Nonempty) : ∃ W : Set ℂ, IsOpen W ∧ W.Nonempty ∧ W ⊆ O ∧ ∀ z ∈ W, p z := by
  refine ⟨O ∩ interior {z | p z}, hO.inter isOpen_interior, (mem_mostly.1 h).inter_open_nonempty O hO hne, Set.inter_subset_left, fun z hz => interior_subset hz.2⟩

instance : mostly.NeBot := ⟨by
  intro h
  have : (∅ : Set ℂ) ∈ mostly := by rw [h]; trivial
  rw [mem_mostly, interior_empty] at this
  exact absurd (this.nonempty) (by simp)⟩

/-- What holds mostly holds mostly in a neighbourhood. -/
theorem mostly_nhds {p : ℂ → Prop} (h : ∀ᶠ z in mostly, p z) : ∀ᶠ z in mostly, ∀ᶠ w in 𝓝 z, p w := by
  have : interior {z | p z} ∈ mostly := by rw [mem_mostly, interior_interior]; exact h
  filter_upwards [this] with z hz
  exact mem_interior_iff_mem_nhds.1 hz

/-- Analytic at most points. -/
def Gen (F : ℂ → ℂ) : Prop := ∀ᶠ z in mostly, AnalyticAt ℂ F z

theorem Gen.congr {F G : ℂ → ℂ} (h : F =ᶠ[mostly] G) (hF : Gen F) : Gen G := by
  have h' := mostly_nhds h
  unfold Gen at *
  filter_upwards [hF, h'] with z h1 h2
  exact h1.congr h2

theorem gen_of_all {F : ℂ → ℂ} (h : ∀ z, AnalyticAt ℂ F z) : Gen F := Eventually.of_forall h

theorem gen_const (c : ℂ) : Gen (fun _ => c) := gen_of_all fun _ => analyticAt_const
theorem gen_id : Gen (fun z => z) := gen_of_all fun _ => analyticAt_id

theorem Gen.add {F G : ℂ → ℂ} (hF : Gen F) (hG : Gen G) : Gen (fun z => F z + G z) := by
  unfold Gen at *
  filter_upwards [hF, hG] with z h1 h2
  exact h1.add h2

theorem Gen.mul {F G : ℂ → ℂ} (hF : Gen F) (hG : Gen G) : Gen (fun z => F z * G z) := by
  unfold Gen at *
  filter_upwards [hF, hG] with z h1 h2
  exact h1.mul h2

/-- Composition: where the inner function is not constant, it hits the points where the outer one is analytic. -/
theorem Gen.comp {h F : ℂ → ℂ} (hh : Gen h) (hF : Gen F) : Gen (fun z => h (F z)) := by
  refine mostly_of_open (isOpen_analyticAt ℂ _) fun O hO hne => ?_
  obtain ⟨W, hW, hWne, hWO, hWF⟩ := mostly_open hF hO hne
  by_cases hex : ∃ z ∈ W, AnalyticAt ℂ h (F z)
  · obtain ⟨z, hz, ha⟩ := hex
    exact ⟨z, hWO hz, ha.comp (hWF z hz)⟩
  · push_neg at hex
    obtain ⟨z, hz⟩ := hWne
    refine ⟨z, hWO hz, ?_⟩
    rcases (hWF z hz).eventually_constant_or_nhds_le_map_nhds with hc | hc
    · have : (fun _ => h (F z)) =ᶠ[𝓝 z] fun w => h (F w) := by
        filter_upwards [hc] with w hw
        rw [hw]
      exact analyticAt_const.congr this
    · exfalso
      have hmem : F '' W ∈ 𝓝 (F z) := hc (image_mem_map (hW.mem_nhds hz))
      obtain ⟨O', hO', hO'o, hO'z⟩ := mem_nhds_iff.1 hmem
      obtain ⟨W', _, ⟨w, hw⟩, hW'O, hW'a⟩ := mostly_open hh hO'o ⟨_, hO'z⟩
      obtain ⟨u, hu, rfl⟩ := hO' (hW'O hw)
      exact hex u hu (hW'a _ hw)

/-- The zeros of an entire function that is not zero. -/
theorem mostly_ne {g : ℂ → ℂ} (hg : ∀ z, AnalyticAt ℂ g z) {z₀ : ℂ} (h0 : g z₀ ≠ 0) : ∀ᶠ z in mostly, g z ≠ 0 := by
  refine mostly_of_open (s := {z | g z ≠ 0}) ?_ fun O hO ⟨w, hw⟩ => ?_
  · have hc : Continuous g := continuous_iff_continuousAt.2 fun z => (hg z).continuousAt
    exact isOpen_ne_fun hc continuous_const
  · by_contra hn
    rw [Set.not_nonempty_iff_eq_empty] at hn
    have hz : g =ᶠ[𝓝 w] 0 := by
      filter_upwards [hO.mem_nhds hw] with u hu
      by_contra h
      have : u ∈ O ∩ {z | g z ≠ 0} := ⟨hu, h⟩
      rw [hn] at this
      exact this
    have := AnalyticOnNhd.eqOn_zero_of_preconnected_of_eventuallyEq_zero (U := Set.univ) (fun z _ => hg z) isPreconnected_univ (Set.mem_univ w) hz
    exact h0 (this (Set.mem_univ z₀))

theorem mostly_slit : ∀ᶠ z in mostly, z ∈ Complex.slitPlane := by
  refine mostly_of_open Complex.isOpen_slitPlane fun O hO ⟨w, hw⟩ => ?_
  have h1 : Tendsto (fun t : ℝ => w + t * Complex.I) (𝓝[>] 0) (𝓝 w) := by
    have : Continuous (fun t : ℝ => w + t * Complex.I) := by fun_prop
    have := this.tendsto 0
    simp only [Complex.ofReal_zero, zero_mul, add_zero] at this
    exact this.mono_left nhdsWithin_le_nhds
  have h2 : ∀ᶠ t : ℝ in 𝓝[>] 0, w + t * Complex.I ∈ O := h1 (hO.mem_nhds hw)
  have h3 : ∀ᶠ t : ℝ in 𝓝[>] 0, w.im + t ≠ 0 := by
    by_cases hi : w.im < 0
    · have : ∀ᶠ t : ℝ in 𝓝[>] 0, t < -w.im := nhdsWithin_le_nhds (Iio_mem_nhds (by linarith))
      filter_upwards [this] with t ht
      linarith
    · have : ∀ᶠ t : ℝ in 𝓝[>] (0 : ℝ), 0 < t := self_mem_nhdsWithin
      filter_upwards [this] with t ht
      have : 0 ≤ w.im := not_lt.1 hi
      linarith
  obtain ⟨t, ht1, ht2⟩ := (h2.and h3).exists
  refine ⟨_, ht1, ?_⟩
  change w + t * Complex.I ∈ Complex.slitPlane
  rw [Complex.mem_slitPlane_iff]
  right
  simpa using ht2

theorem gen_log : Gen Complex.log := by
  unfold Gen
  filter_upwards [mostly_slit] with z hz
  exact analyticAt_clog hz

theorem gen_exp : Gen Complex.exp := gen_of_all fun _ => analyticAt_cexp

theorem mostly_nonzero : ∀ᶠ z : ℂ in mostly, z ≠ 0 := mostly_ne (g := fun z => z) (fun _ => analyticAt_id) (z₀ := 1) one_ne_zero

theorem gen_inv : Gen (fun z => z⁻¹) := by
  unfold Gen
  filter_upwards [mostly_nonzero] with z hz
  exact analyticAt_inv hz

theorem Gen.div {F G : ℂ → ℂ} (hF : Gen F) (hG : Gen G) : Gen (fun z => F z / G z) := by
  simp only [div_eq_mul_inv]
  exact hF.mul (gen_inv.comp hG)

theorem gen_of_diff {F : ℂ → ℂ} (h : Differentiable ℂ F) : Gen F := gen_of_all fun z => h.analyticAt z

theorem gen_cos : Gen Complex.cos := gen_of_diff Complex.differentiable_cos
theorem gen_sin : Gen Complex.sin := gen_of_diff Complex.differentiable_sin

/-- Powers, with value 0 where the base is 0. -/
theorem Gen.pow {F G : ℂ → ℂ} (hF : Gen F) (hG : Gen G) : Gen (fun z => open Classical in if F z = 0 then 0 else F z ^ G z) := by
  have hE : Gen (fun z => Complex.exp (Complex.log (F z) * G z)) := gen_exp.comp ((gen_log.comp hF).mul hG)
  have hFE := hF.and hE
  refine mostly_of_open (isOpen_analyticAt ℂ _) fun O hO hne => ?_
  obtain ⟨W, hW, ⟨z, hz⟩, hWO, hWF⟩ := mostly_open hFE hO hne
  have key : ∀ u ∈ W, F u ≠ 0 → AnalyticAt ℂ (fun z => open Classical in if F z = 0 then 0 else F z ^ G z) u := by
    intro u hu h0
    refine (hWF u hu).2.congr ?_
    filter_upwards [(hWF u hu).1.continuousAt.eventually_ne h0] with w hw
    rw [if_neg hw, Complex.cpow_def_of_ne_zero hw]
  rcases (hWF z hz).1.eventually_eq_zero_or_eventually_ne_zero with h | h
  · refine ⟨z, hWO hz, ?_⟩
    have : (fun _ => (0 : ℂ)) =ᶠ[𝓝 z] fun z => open Classical in if F z = 0 then 0 else F z ^ G z := by
      filter_upwards [h] with w hw
      rw [if_pos hw]
    exact analyticAt_const.congr this
  · have hm : ∀ᶠ w in 𝓝[≠] z, w ∈ W := nhdsWithin_le_nhds (hW.mem_nhds hz)
    obtain ⟨w, hw1, hw2⟩ := (h.and hm).exists
    exact ⟨w, hWO hw2, key w hw2 hw1⟩

/-- Derivatives of functions that agree mostly agree mostly. -/
theorem deriv_congr {F G : ℂ → ℂ} (h : F =ᶠ[mostly] G) : deriv F =ᶠ[mostly] deriv G := by
  filter_upwards [mostly_nhds h] with z hz
  exact Filter.EventuallyEq.deriv_eq hz

end Expreduce
