import Verif.Spec.Linear
import Verif.Proofs.InverseRules

/-! Matching of the rules for linear equations. -/

namespace Expreduce
open Ex Shipped

section
variable {env : MEnv} {L : String → Prop} {P U T : Ex → Prop}

theorem shape_anyOf (d : Option Ex) (s x h : String) :
    shape d false s (anyOf x h) = ⟨1, 1, .expr [S "Blank", S h], some ("Private`" ++ x), true, S "Sequence", none⟩ := by
  simp [shape, anyOf, var, S, testShape, namedShape, bodyShape]

/-- An argument pattern `x_h`. -/
theorem takes_anyOf (hD : Distinct env L P U T) {ρ : String → Option Ex} (hρ : ∀ x v, ρ x = some v → T v) {s x g : String} {c : Ex} (hU : U c) (h : TakesOne env ρ s (anyOf x g) c) :
    ρ ("Private`" ++ x) = some c := by
  obtain ⟨v, hv, hs⟩ := h.2 _ (by rw [shape_anyOf])
  rw [shape_anyOf] at hs
  simp only [Shape.value, Bool.true_or, if_true] at hs
  rw [hv, hD.inj _ _ (hρ _ _ hv) (hD.whole _ hU) hs]

/-- An argument pattern that is a call of a plain function. -/
theorem takes_call (hD : Distinct env L P U T) {ρ : String → Option Ex} {s t : String} {ps cs : List Ex} (hs : t ∉ specialHeads) (hf : env.flat t = false)
    (ho : env.orderless t = false) (hP : ∀ q ∈ subexprs (.expr (.sym t :: ps)), P q) (hU : U (.expr (.sym t :: cs))) (hopt : ps.any isOptional = false)
    (h1 : ∀ p ∈ ps, (shape (env.dflt t) false t p).lo = 1 ∧ (shape (env.dflt t) false t p).hi = 1)
    (hm : TakesOne env ρ s (.expr (.sym t :: ps)) (.expr (.sym t :: cs))) : List.Forall₂ (TakesOne env ρ t) ps cs := by
  have hm1 := hm.1
  rw [shape_plain hs] at hm1
  obtain ⟨cs', k1, k2⟩ := args_inv hD hs hf ho hP hU hopt h1 hm1
  simp only [partsOf, Option.some.injEq, List.cons.injEq, true_and] at k1
  subst k1
  exact k2

end

/-- The functions of the rules. -/
def linearFns : List String := ["System`Solve", "System`List", "System`Equal"]

section
variable {env : MEnv} (hE : ArithEnv env linearFns)
include hE

theorem takes_poly {PP U T : Ex → Prop} (hD : Distinct env (· ∈ polyHeads) PP U T) {ρ : String → Option Ex} (hT : ∀ x v, ρ x = some v → T v) {p P : Ex}
    (hp : FPat env (· ∈ polyHeads) p) (hn : argName p = none) (hb : ∀ g ∈ subexprs p, PP g) (hu : ∀ {g}, g ∈ pieces P → U g) {s : String} (ht : TakesOne env ρ s p P) :
    (∀ t ∈ namedArgs p, Taken env (fun _ => True) ρ t.1 t.2.1 t.2.2) ∧ ∀ V : Interp, V.meaning.argVals (fill ρ p) = V.meaning.argVals P := by
  have hD' : Distinct env (· ∈ polyHeads) (· ∈ subexprs p) (· ∈ pieces P) T := hD.sub (fun _ h => h) hb (fun b hb => hu hb) (pieces_part P) (pieces_opened P)
  have hm1 := ht.1
  rw [shape_fpat hp hn] at hm1
  have key := fun V : Interp => fill_matches (M := V.meaning) (fun s hs => arith_lawful hE V hs) hD' hT (sizeOf p + 1) p P (by omega) hp (fun q hq => hq) (pieces_self P) hm1
  exact ⟨fun t ht => ((key ⟨fun _ => none, fun _ _ => none⟩).2 t ht).mono (fun _ _ => trivial), fun V => (key V).1⟩

/-- A match of `Solve[{p == c_, q == f_}, {x_Symbol, y_Symbol}]`. -/
theorem linear_match {p q P1 C P2 F : Ex} {x y : String} {ρ : String → Option Ex}
    (hp : FPat env (· ∈ polyHeads) p) (hn : argName p = none) (hopt : isOptional p = false) (hq : FPat env (· ∈ polyHeads) q) (hqn : argName q = none) (hqopt : isOptional q = false)
    (hc : ClashFree env polyHeads (held (call "Solve" [list [equal p (any "c"), equal q (any "f")], list [anyOf "x" "Symbol", anyOf "y" "Symbol"]]))
      (call "Solve" [list [equal P1 C, equal P2 F], list [.sym x, .sym y]]) ρ)
    (hm : Matches env ρ (held (call "Solve" [list [equal p (any "c"), equal q (any "f")], list [anyOf "x" "Symbol", anyOf "y" "Symbol"]]))
      (call "Solve" [list [equal P1 C, equal P2 F], list [.sym x, .sym y]])) :
    ρ "Private`x" = some (.sym x) ∧ ρ "Private`y" = some (.sym y) ∧ ρ "Private`c" = some C ∧ ρ "Private`f" = some F ∧
      (hasHead "System`Sequence" C = false ∧ hasHead "System`Sequence" F = false) ∧
      ((∀ t ∈ namedArgs p, Taken env (fun _ => True) ρ t.1 t.2.1 t.2.2) ∧ ∀ t ∈ namedArgs q, Taken env (fun _ => True) ρ t.1 t.2.1 t.2.2) ∧
      (∀ V : Interp, V.meaning.argVals (fill ρ p) = V.meaning.argVals P1) ∧ ∀ V : Interp, V.meaning.argVals (fill ρ q) = V.meaning.argVals P2 := by
  obtain ⟨T, hD, hT⟩ := hc
  have hS := hE.plain "System`Solve" (by decide)
  have hL := hE.plain "System`List" (by decide)
  have hQ := hE.plain "System`Equal" (by decide)
  have b0 : ∀ g ∈ subexprs (call "Solve" [list [equal p (any "c"), equal q (any "f")], list [anyOf "x" "Symbol", anyOf "y" "Symbol"]]), g ∈ subexprs (held (call "Solve" [list [equal p (any "c"), equal q (any "f")], list [anyOf "x" "Symbol", anyOf "y" "Symbol"]])) :=
    fun g hg => subexprs_arg (ps := [_]) (List.mem_singleton.2 rfl) hg
  have b1 := fun g (hg : g ∈ subexprs (list [equal p (any "c"), equal q (any "f")])) => b0 g (subexprs_arg (ps := [_, _]) (List.mem_cons_self ..) hg)
  have b2 := fun g (hg : g ∈ subexprs (list [anyOf "x" "Symbol", anyOf "y" "Symbol"])) => b0 g (subexprs_arg (ps := [_, _]) (List.mem_cons_of_mem _ (List.mem_cons_self ..)) hg)
  have b3 := fun g (hg : g ∈ subexprs (equal p (any "c"))) => b1 g (subexprs_arg (ps := [_, _]) (List.mem_cons_self ..) hg)
  have b4 := fun g (hg : g ∈ subexprs (equal q (any "f"))) => b1 g (subexprs_arg (ps := [_, _]) (List.mem_cons_of_mem _ (List.mem_cons_self ..)) hg)
  have b5 := fun g (hg : g ∈ subexprs p) => b3 g (subexprs_arg (ps := [_, _]) (List.mem_cons_self ..) hg)
  have b6 := fun g (hg : g ∈ subexprs q) => b4 g (subexprs_arg (ps := [_, _]) (List.mem_cons_self ..) hg)
  have m1 : ∀ {s : String} {a b g : Ex}, g ∈ pieces a → g ∈ pieces (call s [a, b]) := fun h => pieces_arg (List.mem_cons_of_mem _ (List.mem_cons_self ..)) h
  have m2 : ∀ {s : String} {a b g : Ex}, g ∈ pieces b → g ∈ pieces (call s [a, b]) := fun h =>
    pieces_arg (List.mem_cons_of_mem _ (List.mem_cons_of_mem _ (List.mem_cons_self ..))) h
  have u1 := m1 (s := "Solve") (b := list [.sym x, .sym y]) (pieces_self (list [equal P1 C, equal P2 F]))
  have u2 := m2 (s := "Solve") (a := list [equal P1 C, equal P2 F]) (pieces_self (list [.sym x, .sym y]))
  have u3 := fun {g : Ex} (hg : g ∈ pieces (equal P1 C)) => m1 (s := "Solve") (b := list [.sym x, .sym y]) (m1 (s := "List") (b := equal P2 F) hg)
  have u4 := fun {g : Ex} (hg : g ∈ pieces (equal P2 F)) => m1 (s := "Solve") (b := list [.sym x, .sym y]) (m2 (s := "List") (a := equal P1 C) hg)
  have u5 := m2 (s := "Solve") (a := list [equal P1 C, equal P2 F]) (m1 (s := "List") (b := .sym y) (pieces_self (.sym x)))
  have u6 := m2 (s := "Solve") (a := list [equal P1 C, equal P2 F]) (m2 (s := "List") (a := .sym x) (pieces_self (.sym y)))
  obtain ⟨cs, k1, k2⟩ := args_inv hD (by decide) hS.1 hS.2 b0 (pieces_self _) (by simp [list, call, isOptional, S]) (by
    intro p hp
    simp only [List.mem_cons, List.not_mem_nil, or_false] at hp
    rcases hp with rfl | rfl <;> exact ⟨by rw [shape_list], by rw [shape_list]⟩) (matches_hold_inv hm)
  simp only [call, partsOf, S, Option.some.injEq, List.cons.injEq] at k1
  obtain ⟨_, rfl⟩ := k1
  simp only [List.forall₂_cons, List.forall₂_nil_left_iff, and_true] at k2
  have e1 := takes_call hD (t := "System`List") (by decide) hL.1 hL.2 b1 u1 (by simp [equal, call, isOptional, S]) (by
    intro p hp
    simp only [List.mem_cons, List.not_mem_nil, or_false] at hp
    rcases hp with rfl | rfl <;> exact ⟨by rw [equal, call, S, shape_plain (by decide)], by rw [equal, call, S, shape_plain (by decide)]⟩) k2.1
  have e2 := takes_call hD (t := "System`List") (by decide) hL.1 hL.2 b2 u2 (by simp [anyOf, isOptional, S]) (by
    intro p hp
    simp only [List.mem_cons, List.not_mem_nil, or_false] at hp
    rcases hp with rfl | rfl <;> exact ⟨by rw [shape_anyOf], by rw [shape_anyOf]⟩) k2.2
  simp only [List.forall₂_cons, List.forall₂_nil_left_iff, and_true] at e1 e2
  have hsh : ∀ {p : Ex} (v : String), FPat env (· ∈ polyHeads) p → argName p = none → ∀ g ∈ [p, any v],
      (shape (env.dflt "System`Equal") false "System`Equal" g).lo = 1 ∧ (shape (env.dflt "System`Equal") false "System`Equal" g).hi = 1 := by
    intro p v hp hn g hg
    simp only [List.mem_cons, List.not_mem_nil, or_false] at hg
    rcases hg with rfl | rfl
    · rw [shape_fpat hp hn]; exact ⟨rfl, rfl⟩
    · rw [shape_any]; exact ⟨rfl, rfl⟩
  have e3 := takes_call hD (t := "System`Equal") (by decide) hQ.1 hQ.2 b3 (u3 (pieces_self _)) (by simp [hopt, show isOptional (any "c") = false from rfl]) (hsh "c" hp hn) e1.1
  have e4 := takes_call hD (t := "System`Equal") (by decide) hQ.1 hQ.2 b4 (u4 (pieces_self _)) (by simp [hqopt, show isOptional (any "f") = false from rfl]) (hsh "f" hq hqn) e1.2
  simp only [List.forall₂_cons, List.forall₂_nil_left_iff, and_true] at e3 e4
  have f1 := takes_poly hE hD hT hp hn b5 (fun h => u3 (m1 (s := "Equal") h)) e3.1
  have f2 := takes_poly hE hD hT hq hqn b6 (fun h => u4 (m1 (s := "Equal") h)) e4.1
  have u7 := u3 (m2 (s := "Equal") (a := P1) (pieces_self C))
  have u8 := u4 (m2 (s := "Equal") (a := P2) (pieces_self F))
  exact ⟨takes_anyOf hD hT u5 e2.1, takes_anyOf hD hT u6 e2.2, takes_any hD hT u7 e3.2, takes_any hD hT u8 e4.2, ⟨hD.noSeq _ u7, hD.noSeq _ u8⟩, ⟨f1.1, f2.1⟩, f1.2, f2.2⟩

end

section
variable {ρ : String → Option Ex} (h : NotBound ρ)
include h

theorem subst_linear2 (a b c d e f x y : Ex) : subst ρ (sols2 x y (linear2Sol a b c d e f)) =
    sols2 (subst ρ x) (subst ρ y) (linear2Sol (subst ρ a) (subst ρ b) (subst ρ c) (subst ρ d) (subst ρ e) (subst ρ f)) := by
  simp only [sols2, linear2Sol, subst_list h, subst_arrow h, List.map_cons, List.map_nil, subst_dv h, subst_neg h, subst_add h, subst_mul h, subst_sub h]
theorem subst_linear1 (a b c d f x y : Ex) : subst ρ (sols2 x y (linear1Sol a b c d f)) =
    sols2 (subst ρ x) (subst ρ y) (linear1Sol (subst ρ a) (subst ρ b) (subst ρ c) (subst ρ d) (subst ρ f)) := by
  simp only [sols2, linear1Sol, subst_list h, subst_arrow h, List.map_cons, List.map_nil, subst_dv h, subst_neg h, subst_add h, subst_mul h]

theorem subst_ifFree2 (e : Ex) (l : List String) : subst ρ (ifFree2 e l) = Shipped.cond (subst ρ e) (call "And" [call "FreeQ" [list (l.map (fun y => subst ρ (var y))), subst ρ (var "x")],
    call "FreeQ" [list (l.map (fun y => subst ρ (var y))), subst ρ (var "y")]]) := by
  have hF : ∀ v : Ex, subst ρ (call "FreeQ" [list (l.map var), v]) = call "FreeQ" [list (l.map (fun y => subst ρ (var y))), subst ρ v] := by
    intro v
    rw [subst_sys (s := "FreeQ") (h _ (by decide)), List.map_cons, List.map_cons, List.map_nil, subst_list h, List.map_map]
    rfl
  unfold ifFree2
  rw [Shipped.cond, subst_sys (h _ (by decide)), List.map_cons, List.map_cons, List.map_nil, subst_sys (s := "And") (h _ (by decide)), List.map_cons, List.map_cons, List.map_nil, hF, hF]
  rfl

end
end Expreduce
