import Verif.Props.Diff

/-! Examples for C94. -/

namespace Expreduce
open Ex Shipped Filter Topology

/-- `D[x Sin[x], x]` evaluates to `x Cos[x] + Sin[x]`, and all conditions of C94 are met on the way. -/
theorem diff_example : diffGives "x" 30 (mul [.sym "x", call "Sin" [.sym "x"]]) (add [mul [.sym "x", call "Cos" [.sym "x"]], call "Sin" [.sym "x"]]) = true := by decide +kernel

/-- `D[x^2, x]` evaluates to `2 x`. -/
theorem diff_square : diffGives "x" 60 (pow (.sym "x") (.int 2)) (mul [.int 2, .sym "x"]) = true := by decide +kernel

theorem put_val (val : String → Option ℂ) (z : ℂ) : ((stdInterp val).put "x" z).meaning.val (.sym "x") = some z := by
  rw [val_sym, if_neg (by decide)]
  simp [Interp.put]

/-- What C94 says about the first example: the derivative of `z sin z` is `z cos z + sin z`. -/
example : ∀ z : ℂ, HasDerivAt (fun z => z * Complex.sin z) (z * Complex.cos z + Complex.sin z) z := by
  have hS := fun z => put_standard (stdInterp_standard (fun _ => none)) (x := "x") (by unfold isVariable; decide) z
  have hf : ∀ z, ((stdInterp fun _ => none).put "x" z).Denotes (mul [.sym "x", call "Sin" [.sym "x"]]) (z * Complex.sin z) := by
    intro z
    have hx := put_val (fun _ => none) z
    unfold Interp.Denotes
    simp only [mul, call, S, String.reduceAppend]
    rule_goal [hx, (hS z).op_sin]
  have hg : ∀ z, ((stdInterp fun _ => none).put "x" z).Denotes (add [mul [.sym "x", call "Cos" [.sym "x"]], call "Sin" [.sym "x"]]) (z * Complex.cos z + Complex.sin z) := by
    intro z
    have hx := put_val (fun _ => none) z
    unfold Interp.Denotes
    simp only [add, mul, call, S, String.reduceAppend]
    rule_goal [hx, (hS z).op_sin, (hS z).op_cos]
  have hfr : Frag (· ∈ stdHeads) (mul [.sym "x", call "Sin" [.sym "x"]]) := by
    refine frag_call.2 ⟨by decide, ?_⟩
    intro a ha
    simp only [List.mem_cons, List.not_mem_nil, or_false] at ha
    rcases ha with rfl | rfl
    · exact .sym _
    · exact frag_call.2 ⟨by decide, by simp [Frag.sym]⟩
  intro z
  exact diffGives_sound diff_example (fun _ => none) (by unfold isVariable; decide) hfr rfl Set.univ isOpen_univ dense_univ (fun z _ => ⟨_, hf z⟩) Set.univ isOpen_univ _ _ (fun z _ => hf z)
    (by fun_prop) (fun z _ => hg z) (by fun_prop) z trivial

end Expreduce
