import Verif.Proofs.DiffMatch

/-! What a match of a call says about the expression, if every argument pattern takes one argument. -/

namespace Expreduce
open Ex Shipped

/-- Segments of length 1. -/
theorem singles_flatten : ∀ (A : List (List Nat)) (k n : Nat), (∀ is ∈ A, is.length = 1) → A.flatten = List.range' k n → A.length = n ∧ ∀ j, j < n → A[j]? = some [k + j]
  | [], k, n, _, h => by
    cases n with
    | zero => simp
    | succ n => simp [List.range'_succ] at h
  | is :: A, k, n, h1, h => by
    obtain ⟨i, rfl⟩ := List.length_eq_one_iff.1 (h1 is (by simp))
    cases n with
    | zero => simp at h
    | succ n =>
      rw [List.range'_succ] at h
      simp only [List.flatten_cons, List.cons_append, List.nil_append, List.cons.injEq] at h
      obtain ⟨rfl, h⟩ := h
      obtain ⟨h2, h3⟩ := singles_flatten A (i + 1) n (fun is his => h1 is (by simp [his])) h
      refine ⟨by simp [h2], fun j hj => ?_⟩
      cases j with
      | zero => simp
      | succ j =>
        rw [List.getElem?_cons_succ, h3 j (by omega)]
        congr 2
        omega

section
variable {env : MEnv} {L : String → Prop} {P U T : Ex → Prop}

/-- The argument `c` is taken by the argument pattern `p`. -/
def TakesOne (env : MEnv) (ρ : String → Option Ex) (s : String) (p c : Ex) : Prop :=
  Matches env ρ (shape (env.dflt s) false s p).elem c ∧
    ∀ x, (shape (env.dflt s) false s p).name = some x → ∃ v, ρ x = some v ∧ isSameQ v ((shape (env.dflt s) false s p).value (env.oneIdentity s) [c]) = true

/-- A match of `s[p1, p2, ...]` where each pattern takes one argument. -/
theorem args_inv (hD : Distinct env L P U T) {ρ : String → Option Ex} {s : String} {ps : List Ex} {a : Ex} (hs : s ∉ specialHeads) (hf : env.flat s = false)
    (ho : env.orderless s = false) (hP : ∀ q ∈ subexprs (.expr (.sym s :: ps)), P q) (hU : U a) (hopt : ps.any isOptional = false)
    (h1 : ∀ p ∈ ps, (shape (env.dflt s) false s p).lo = 1 ∧ (shape (env.dflt s) false s p).hi = 1)
    (hm : Matches env ρ (.expr (.sym s :: ps)) a) : ∃ cs, partsOf a = some (.sym s :: cs) ∧ List.Forall₂ (TakesOne env ρ s) ps cs := by
  have hsp : ∀ t, t ∈ specialHeads → s ≠ t := fun t ht => special_ne hs ht
  have hPs : P (.sym s) := hP _ (by simp [subexprs, subexprsL])
  generalize hb : Ex.expr (.sym s :: ps) = q at hm
  cases hm with
  | lit g => subst hb; simp [isAtom] at g
  | blank g =>
    simp only [Ex.expr.injEq, List.cons.injEq, Ex.sym.injEq] at hb
    obtain ⟨rfl, _⟩ := hb
    exact absurd rfl (hsp s (by simp [specialHeads, g]))
  | named =>
    simp only [S, Ex.expr.injEq, List.cons.injEq, Ex.sym.injEq] at hb
    exact absurd hb.1 (hsp _ (by decide))
  | @same s' ps' as _ A g1 g2 g3 g4 g5 g6 g7 =>
    simp only [Ex.expr.injEq, List.cons.injEq, Ex.sym.injEq] at hb
    obtain ⟨rfl, rfl⟩ := hb
    rw [hf] at g5 g6 g7
    rw [ho] at g4
    have hone : ∀ is ∈ A, is.length = 1 := by
      intro is his
      obtain ⟨j, hj, rfl⟩ := List.mem_iff_getElem.1 his
      have hjp : j < ps.length := g3 ▸ hj
      have := g5 j ps[j] A[j] (List.getElem?_eq_getElem hjp) (List.getElem?_eq_getElem hj)
      obtain ⟨k1, k2⟩ := h1 ps[j] (List.getElem_mem hjp)
      rw [k1, k2] at this
      omega
    simp only [Layout, Bool.false_eq_true, if_false] at g4
    rw [List.range_eq_range'] at g4
    obtain ⟨l1, l2⟩ := singles_flatten A 0 as.length hone g4
    refine ⟨as, g2, List.forall₂_iff_get.2 ⟨by omega, fun i hi hi' => ?_⟩⟩
    have hA := l2 i hi'
    rw [Nat.zero_add] at hA
    have e1 : ps[i]? = some (ps.get ⟨i, hi⟩) := List.getElem?_eq_getElem hi
    have e2 : as[i]? = some (as.get ⟨i, hi'⟩) := List.getElem?_eq_getElem hi'
    refine ⟨g6 i _ [i] i _ e1 hA (by simp) e2, fun x hx => ?_⟩
    have := g7 i _ [i] x e1 hA hx
    simpa [e2] using this
  | @diff ps' as _ A g1 g2 g3 g3' g4 g5 g6 g7 g8 =>
    simp only [Ex.expr.injEq] at hb
    subst hb
    obtain ⟨x, t, rfl, hx⟩ := first_elem g4 g5 (sh := shape (env.dflt "Sequence") false "Sequence") rfl g6 g7
    have : x = .sym s := matches_sym hD (hD.part _ _ hU g2 x (by simp)) hPs hx
    subst this
    exact absurd ⟨rfl, rfl⟩ (g3 s)
  | clash g1 g2 g3 g4 g5 =>
    have := hD.inj _ _ (hD.whole _ hU) (hD.pat _ (hP _ (by rw [hb]; exact subexprs_self _))) g5
    subst this
    simp [isAtom] at g1
  | @assumed s' ps' _ g1 g2 g3 =>
    simp only [Ex.expr.injEq, List.cons.injEq, Ex.sym.injEq] at hb
    obtain ⟨rfl, rfl⟩ := hb
    simp [headOmitted, hopt] at g2
  | verb => simp at hb
  | verbClash => simp at hb
  | alt =>
    simp only [S, Ex.expr.injEq, List.cons.injEq, Ex.sym.injEq] at hb
    exact absurd hb.1 (hsp _ (by decide))
  | test =>
    simp only [S, Ex.expr.injEq, List.cons.injEq, Ex.sym.injEq] at hb
    exact absurd hb.1 (hsp _ (by decide))
  | hold =>
    simp only [S, Ex.expr.injEq, List.cons.injEq, Ex.sym.injEq] at hb
    exact absurd hb.1 (hsp _ (by decide))

/-- An argument pattern `x_`. -/
theorem takes_any (hD : Distinct env L P U T) {ρ : String → Option Ex} (hρ : ∀ x v, ρ x = some v → T v) {s x : String} {c : Ex} (hU : U c) (h : TakesOne env ρ s (any x) c) :
    ρ ("Private`" ++ x) = some c := by
  obtain ⟨v, hv, hs⟩ := h.2 _ (by rw [shape_any])
  rw [any_value] at hs
  rw [hv, hD.inj _ _ (hρ _ _ hv) (hD.whole _ hU) hs]

end
end Expreduce
