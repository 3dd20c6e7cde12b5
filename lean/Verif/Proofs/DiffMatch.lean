import Verif.Proofs.DiffMeaning

/-! What a match of a rule of `D` says about the expression. -/

namespace Expreduce
open Ex Shipped

section
variable {env : MEnv} {L : String → Prop} {P U T : Ex → Prop}

/-- Fewer expressions are matched. -/
theorem Distinct.sub {P' U' : Ex → Prop} {L'' : String → Prop} (hD : Distinct env L P U T) (hL : ∀ s, L'' s → L s) (hP : ∀ q, P' q → P q) (hU : ∀ a, U' a → U a)
    (hpart : ∀ a as, U' a → partsOf a = some as → ∀ x ∈ as, U' x) (hop : ∀ a, U' a → U' (Expreduce.opened a)) : Distinct env L'' P' U' T where
  inj := hD.inj
  whole := fun a h => hD.whole a (hU a h)
  head := fun a h => hD.head a (hU a h)
  noSeq := fun a h => hD.noSeq a (hU a h)
  part := hpart
  headSym := fun a h as ha => hD.headSym a h as (hU a ha)
  group := fun a h as cs ha => hD.group a h as cs (hU a ha)
  omitted := fun a s cs ha hs => hD.omitted a s cs (hU a ha) (hL s hs)
  opened := hop
  pat := fun q hq => hD.pat q (hP q hq)
  dflt := fun s d hs => hD.dflt s d (hL s hs)

/-- A match of `s[p1, p2]` where both patterns take one argument. -/
theorem two_inv (hD : Distinct env L P U T) {ρ : String → Option Ex} {s : String} {p1 p2 a : Ex} (hs : s ∉ specialHeads) (hf : env.flat s = false)
    (ho : env.orderless s = false) (hP : ∀ q ∈ subexprs (.expr [.sym s, p1, p2]), P q) (hU : U a)
    (hopt : isOptional p1 = false ∧ isOptional p2 = false)
    (h1 : (shape (env.dflt s) false s p1).lo = 1 ∧ (shape (env.dflt s) false s p1).hi = 1)
    (h2 : (shape (env.dflt s) false s p2).lo = 1 ∧ (shape (env.dflt s) false s p2).hi = 1)
    (hm : Matches env ρ (.expr [.sym s, p1, p2]) a) : ∃ c1 c2, partsOf a = some [.sym s, c1, c2] ∧
      Matches env ρ (shape (env.dflt s) false s p1).elem c1 ∧ Matches env ρ (shape (env.dflt s) false s p2).elem c2 ∧
      (∀ x, (shape (env.dflt s) false s p1).name = some x → ∃ v, ρ x = some v ∧ isSameQ v ((shape (env.dflt s) false s p1).value (env.oneIdentity s) [c1]) = true) ∧
      (∀ x, (shape (env.dflt s) false s p2).name = some x → ∃ v, ρ x = some v ∧ isSameQ v ((shape (env.dflt s) false s p2).value (env.oneIdentity s) [c2]) = true) := by
  have hsp : ∀ t, t ∈ specialHeads → s ≠ t := fun t ht => special_ne hs ht
  have hPs : P (.sym s) := hP _ (by simp [subexprs, subexprsL])
  generalize hb : Ex.expr [.sym s, p1, p2] = q at hm
  cases hm with
  | lit g => subst hb; simp [isAtom] at g
  | blank g =>
    simp only [Ex.expr.injEq, List.cons.injEq, Ex.sym.injEq] at hb
    obtain ⟨rfl, _⟩ := hb
    exact absurd rfl (hsp s (by simp [specialHeads, g]))
  | named =>
    simp only [S, Ex.expr.injEq, List.cons.injEq, Ex.sym.injEq] at hb
    exact absurd hb.1 (hsp _ (by decide))
  | @same s' ps as _ A g1 g2 g3 g4 g5 g6 g7 =>
    simp only [Ex.expr.injEq, List.cons.injEq, Ex.sym.injEq] at hb
    obtain ⟨rfl, rfl⟩ := hb
    rw [hf] at g5 g6 g7
    rw [ho] at g4
    simp only [List.length_cons, List.length_nil] at g3
    rcases A with _ | ⟨i1, _ | ⟨i2, _ | ⟨_, A⟩⟩⟩
    · simp at g3
    · simp at g3
    · have l1 := g5 0 p1 i1 rfl rfl
      have l2 := g5 1 p2 i2 rfl rfl
      rw [h1.1, h1.2] at l1
      rw [h2.1, h2.2] at l2
      obtain ⟨k1, rfl⟩ := List.length_eq_one_iff.1 (show i1.length = 1 by omega)
      obtain ⟨k2, rfl⟩ := List.length_eq_one_iff.1 (show i2.length = 1 by omega)
      simp only [Layout, Bool.false_eq_true, if_false, List.flatten_cons, List.flatten_nil, List.append_nil, List.cons_append, List.nil_append] at g4
      have hlen := congrArg List.length g4
      simp only [List.length_cons, List.length_nil, List.length_range] at hlen
      rcases as with _ | ⟨c1, _ | ⟨c2, _ | ⟨_, as⟩⟩⟩
      · simp at hlen
      · simp at hlen
      · have hk : k1 = 0 ∧ k2 = 1 := by
          simp only [List.length_cons, List.length_nil] at g4
          rw [show List.range (0 + 1 + 1) = [0, 1] from rfl] at g4
          simpa using g4
        obtain ⟨rfl, rfl⟩ := hk
        refine ⟨c1, c2, g2, g6 0 p1 [0] 0 c1 rfl rfl (by simp) rfl, g6 1 p2 [1] 1 c2 rfl rfl (by simp) rfl, fun x hx => ?_, fun x hx => ?_⟩
        · simpa using g7 0 p1 [0] x rfl rfl hx
        · simpa using g7 1 p2 [1] x rfl rfl hx
      · simp at hlen
    · simp at g3
  | @diff ps as _ A g1 g2 g3 g3' g4 g5 g6 g7 g8 =>
    simp only [Ex.expr.injEq] at hb
    subst hb
    obtain ⟨x, t, rfl, hx⟩ := first_elem g4 g5 (sh := shape (env.dflt "Sequence") false "Sequence") rfl g6 g7
    have : x = .sym s := matches_sym hD (hD.part _ _ hU g2 x (by simp)) hPs hx
    subst this
    exact absurd ⟨rfl, rfl⟩ (g3 s)
  | clash g1 g2 g3 g4 g5 =>
    have := hD.inj _ _ (hD.whole _ hU) (hD.pat _ (hP _ (by rw [hb]; exact subexprs_self _))) g5
    subst this
    simp [isAtom] at g1
  | @assumed s' ps _ g1 g2 g3 =>
    simp only [Ex.expr.injEq, List.cons.injEq, Ex.sym.injEq] at hb
    obtain ⟨rfl, rfl⟩ := hb
    simp [headOmitted, hopt.1, hopt.2] at g2
  | verb => simp at hb
  | verbClash => simp at hb
  | alt =>
    simp only [S, Ex.expr.injEq, List.cons.injEq, Ex.sym.injEq] at hb
    exact absurd hb.1 (hsp _ (by decide))
  | test =>
    simp only [S, Ex.expr.injEq, List.cons.injEq, Ex.sym.injEq] at hb
    exact absurd hb.1 (hsp _ (by decide))
  | hold => simp [S] at hb

theorem shape_any (d : Option Ex) (s x : String) : shape d false s (any x) = ⟨1, 1, .expr [S "Blank"], some ("Private`" ++ x), true, S "Sequence", none⟩ := by
  simp [shape, any, var, S, testShape, namedShape, bodyShape]

theorem any_value (d : Option Ex) (s x : String) (b : Bool) (c : Ex) : (shape d false s (any x)).value b [c] = c := by
  rw [shape_any]; simp [Shape.value]

end
end Expreduce
