import Verif.Proofs.Shipped1
import Verif.Proofs.Shipped2
import Verif.Proofs.Shipped3
import Verif.Proofs.Shipped4

/-! A table of shipped rules is sound. -/

namespace Expreduce
open Ex Shipped

section
variable {V : Interp} {A : AlgParams} {D : Table} (hS : V.Standard) (hT : TruthOk V A.truth) (hD : StdTable V D) (hL : LocalsOk A.locals)

theorem power_dflt (xs : List (Option ℂ)) : V.meaning.op "System`Power" (xs ++ [some 1]) = V.meaning.op "System`Power" xs := by
  simp only [meaning_op, allSome_append]
  cases allSome xs with
  | none => rfl
  | some l =>
    simp only [allSome, Option.map_some, Option.bind_some]
    rw [arith_power, arith_power, List.foldr_append]
    simp [powValue_one]

include hD in
theorem std_lawful {s : String} (hs : s ∈ lhsHeads) : V.meaning.Lawful (tabEnv A D) s := by
  have hstd : s ∈ stdHeads := (by decide : ∀ s ∈ lhsHeads, s ∈ stdHeads) s hs
  by_cases h1 : s = "System`Plus"
  · subst h1
    refine ⟨fun _ _ _ _ => plus_flat (.inl rfl), fun _ _ _ h => plus_perm (.inl rfl) h, fun _ => plus_one, fun d hd xs => ?_⟩
    rw [(env_plus hD).2.2.2] at hd
    cases hd
    rw [argVals_int, plus_append, plus_one]
    cases V.meaning.op "System`Plus" xs <;> simp
  by_cases h2 : s = "System`Times"
  · subst h2
    refine ⟨fun _ _ _ _ => plus_flat (.inr rfl), fun _ _ _ h => plus_perm (.inr rfl) h, fun _ => times_one, fun d hd xs => ?_⟩
    rw [(env_times hD).2.2.2] at hd
    cases hd
    rw [argVals_int, times_append, times_one]
    cases V.meaning.op "System`Times" xs <;> simp
  by_cases h3 : s = "System`Power"
  · subst h3
    refine ⟨fun h => ?_, fun h => ?_, fun _ => power_one, fun d hd xs => ?_⟩
    · rw [(env_power hD).1] at h; cases h
    · rw [(env_power hD).2.1] at h; cases h
    · rw [(env_power hD).2.2.2] at hd
      cases hd
      rw [argVals_int, Int.cast_one, power_dflt]
  · obtain ⟨k1, k2, k3, k4⟩ := env_other (A := A) hD hstd (by simp [h1, h2, h3])
    refine ⟨fun h => ?_, fun h => ?_, fun h => ?_, fun d hd => ?_⟩
    · rw [k1] at h; cases h
    · rw [k2] at h; cases h
    · rw [k3] at h; cases h
    · rw [k4] at hd; cases hd

include hL in
/-- The value of a symbol, as a rule. -/
theorem symbol_sound {s : String} {rhs : Ex} (h1 : Frag Std rhs) (h2 : Related V.meaning Refines (.sym s) rhs) : SoundPair V A D (held (.sym s), rhs) := by
  refine ⟨.hold (.atom rfl), .hold (.atom rfl), fun ρ res _ ho hy => ?_⟩
  have hρ : ρ = fun _ => none := by
    funext y
    refine ho.none ?_
    simp [held, patNames, patNamesL, patName, S]
  subst hρ
  simp only [subst_nil] at hy
  obtain rfl := yields_frag hL h1 hy
  refine ⟨h1, ?_⟩
  have : fill (fun _ => none) (held (.sym s)) = .sym s := by simp [held, fill, argName, testName, coreName, S]
  rw [this]
  exact h2

include hS in
theorem i_related : Related V.meaning Refines (.sym "System`I") (call "Complex" [.int 0, .int 1]) := by
  refine related_of V rfl (by decide) fun v hv => ?_
  rw [hS.val_i] at hv
  cases hv
  rw [call, S, Meaning.val_app]
  simp only [String.reduceAppend, Meaning.vals_cons, Meaning.vals_nil, argVals_int, List.cons_append, List.nil_append, List.append_nil]
  rw [complex_two]
  simp

include hS hT hD hL in
/-- Every shipped rule is sound. -/
theorem rulesFor_sound (s : String) : ∀ r ∈ rulesFor s, SoundPair V A D r := by
  unfold rulesFor
  split; · exact times_sound hS hT hD hL
  split; · exact power_sound hS hT hD hL
  split; · exact log_sound hS hT hD hL
  split; · exact sqrt_sound hS hT hD hL
  split; · exact sin_sound hS hT hD hL
  split; · exact cos_sound hS hT hD hL
  split; · exact tan_sound hS hT hD hL
  split; · exact cot_sound hS hT hD hL
  split; · exact sec_sound hS hT hD hL
  split; · exact arcTan_sound hS hT hD hL
  split
  · intro r hr
    simp only [List.mem_cons, List.not_mem_nil, or_false] at hr
    subst hr
    exact symbol_sound hL (frag_call.2 ⟨by decide, by simp [Frag.int]⟩) (i_related hS)
  · intro r hr; cases hr

/-- Only `I` has a value among the shipped rules. -/
theorem rulesFor_symbol {s : String} {r : Ex × Ex} (hr : r ∈ rulesFor s) (h : isSymbolRule r.1 = true) :
    s = "System`I" ∧ r.2 = call "Complex" [.int 0, .int 1] := by
  have key : ∀ l : List (Ex × Ex), l.all (fun r => !isSymbolRule r.1) = true → r ∉ l := by
    intro l hl hr
    have := List.all_eq_true.1 hl r hr
    rw [h] at this; cases this
  unfold rulesFor at hr
  split at hr; · exact (key _ (by decide +kernel) hr).elim
  split at hr; · exact (key _ (by decide +kernel) hr).elim
  split at hr; · exact (key _ (by decide +kernel) hr).elim
  split at hr; · exact (key _ (by decide +kernel) hr).elim
  split at hr; · exact (key _ (by decide +kernel) hr).elim
  split at hr; · exact (key _ (by decide +kernel) hr).elim
  split at hr; · exact (key _ (by decide +kernel) hr).elim
  split at hr; · exact (key _ (by decide +kernel) hr).elim
  split at hr; · exact (key _ (by decide +kernel) hr).elim
  split at hr; · exact (key _ (by decide +kernel) hr).elim
  split at hr
  · rename_i hs
    simp only [List.mem_cons, List.not_mem_nil, or_false] at hr
    subst hr
    exact ⟨hs, rfl⟩
  · cases hr

theorem getSymDef_mem {s : String} {v : Ex} (h : getSymDef { defs := D } s = some v) :
    ∃ d dv, D s = some d ∧ dv ∈ d.downvalues ∧ isSymbolRule dv.lhs = true ∧ dv.rhs = v := by
  simp only [getSymDef] at h
  split at h
  · cases h
  · rename_i d hd
    obtain ⟨dv, h1, h2⟩ := Option.map_eq_some_iff.1 h
    exact ⟨d, dv, hd, List.mem_of_find?_eq_some h1, by simpa using List.find?_some h1, h2⟩

include hS hT hD hL in
/-- A table of shipped rules and right values is sound. -/
theorem stdTable_sound : SoundTable V A D (· ∈ stdHeads) lhsHeads where
  plain := by decide
  arith := by decide
  lawful := fun s hs => std_lawful hD hs
  flat := by
    intro s d hs hd hf
    by_contra hn
    simp only [List.mem_cons, List.not_mem_nil, or_false, not_or] at hn
    by_cases h3 : s = "System`Power"
    · obtain ⟨d', h1, h2, _⟩ := hD.power
      rw [h3, h1] at hd; cases hd
      rw [h2] at hf; cases hf
    · have := (hD.others s hs (by simp [hn.1, hn.2, h3]) d hd).1
      rw [hf] at this; cases this
  orderless := by
    intro s d hs hd hf
    by_contra hn
    simp only [List.mem_cons, List.not_mem_nil, or_false, not_or] at hn
    by_cases h3 : s = "System`Power"
    · obtain ⟨d', h1, _, h2, _⟩ := hD.power
      rw [h3, h1] at hd; cases hd
      rw [h2] at hf; cases hf
    · have := (hD.others s hs (by simp [hn.1, hn.2, h3]) d hd).2.1
      rw [hf] at this; cases this
  sequence := by
    intro d hd
    refine List.eq_nil_iff_forall_not_mem.2 fun dv hdv => ?_
    rcases hD.rules _ d dv hd hdv with h | ⟨h, _⟩
    · rw [show rulesFor "System`Sequence" = [] from by decide] at h; cases h
    · exact h (by decide)
  dflt := ⟨fun s x hx => by
    simp only [envOf] at hx
    obtain ⟨d, h1, h2⟩ := Option.bind_eq_some_iff.1 hx
    exact hD.dflt s d x h1 h2⟩
  noValue := by
    intro s hs
    cases h : getSymDef { defs := D } s with
    | none => rfl
    | some v =>
      obtain ⟨d, dv, h1, h2, h3, h4⟩ := getSymDef_mem h
      rcases hD.rules s d dv h1 h2 with hr | ⟨hr, _⟩
      · obtain ⟨rfl, _⟩ := rulesFor_symbol hr h3
        exact absurd hs (by decide)
      · exact absurd hs hr
  values := by
    intro s v h
    obtain ⟨d, dv, h1, h2, h3, h4⟩ := getSymDef_mem h
    rcases hD.rules s d dv h1 h2 with hr | ⟨_, _, k1, k2⟩
    · obtain ⟨rfl, h5⟩ := rulesFor_symbol hr h3
      simp only at h5
      rw [← h4, h5]
      exact ⟨frag_call.2 ⟨by decide, by simp [Frag.int]⟩, i_related hS⟩
    · rw [← h4]; exact ⟨k1, k2⟩
  rules := by
    intro s d dv hd hdv
    rcases hD.rules s d dv hd hdv with hr | ⟨_, h1, h2, h3⟩
    · exact rulesFor_sound hS hT hD hL s _ hr
    · have := symbol_sound (V := V) (A := A) (D := D) hL h2 h3
      rw [← h1] at this
      exact this

end
end Expreduce
