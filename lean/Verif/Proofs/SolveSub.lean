import Verif.Proofs.SolveValues
import Verif.Proofs.ArgsInv
import Verif.Proofs.DiffRules
import Verif.Props.Meaning

/-! Rules with the formulas for solutions: what a match gives, and the right side. -/

namespace Expreduce
open Ex Shipped

/-- The functions and constants of the rules. -/
def solveConsts : List String := ["System`Plus", "System`Times", "System`Power", "System`Sqrt", "System`List", "System`Rule", "System`Condition", "System`FreeQ",
  "System`I", "Private`solveQuadratic", "Private`solveCubic", "Private`solveQuartic", "System`Inverse", "System`Solve", "System`Equal", "System`And"]

/-- They are not bound. -/
def NotBound (ρ : String → Option Ex) : Prop := ∀ s ∈ solveConsts, ρ s = none

section
variable {ρ : String → Option Ex}

theorem subst_sys {s : String} {l : List Ex} (h : ρ ("System`" ++ s) = none) : subst ρ (call s l) = call s (l.map (subst ρ)) := by
  simp [call, S, subst, substL, substL_eq, h]

theorem subst_priv {s : String} {l : List Ex} (h : ρ ("Private`" ++ s) = none) : subst ρ (callP s l) = callP s (l.map (subst ρ)) := by
  simp [callP, subst, substL, substL_eq, h]

theorem subst_int (n : Int) : subst ρ (.int n) = .int n := by simp [subst]

variable (h : NotBound ρ)
include h

theorem subst_add (l : List Ex) : subst ρ (add l) = add (l.map (subst ρ)) := subst_sys (h _ (by decide))
theorem subst_mul (l : List Ex) : subst ρ (mul l) = mul (l.map (subst ρ)) := subst_sys (h _ (by decide))
theorem subst_pow (a b : Ex) : subst ρ (pow a b) = pow (subst ρ a) (subst ρ b) := subst_sys (h _ (by decide))
theorem subst_root2 (a : Ex) : subst ρ (root2 a) = root2 (subst ρ a) := subst_sys (h _ (by decide))
theorem subst_list (l : List Ex) : subst ρ (list l) = list (l.map (subst ρ)) := subst_sys (h _ (by decide))
theorem subst_arrow (a b : Ex) : subst ρ (arrow a b) = arrow (subst ρ a) (subst ρ b) := subst_sys (h _ (by decide))
theorem subst_i : subst ρ Shipped.i = Shipped.i := by simp [Shipped.i, S, subst, h "System`I" (by decide)]
theorem subst_neg (a : Ex) : subst ρ (neg a) = neg (subst ρ a) := by rw [show Shipped.neg a = mul [.int (-1), a] from rfl, subst_mul h]; simp [subst_int, Shipped.neg]
theorem subst_dv (a b : Ex) : subst ρ (dv a b) = dv (subst ρ a) (subst ρ b) := by simp [dv, subst_mul h, subst_pow h, subst_int]
theorem subst_sub (a b : Ex) : subst ρ (sub a b) = sub (subst ρ a) (subst ρ b) := by simp [Shipped.sub, subst_add h, subst_neg h]
theorem subst_sq (a : Ex) : subst ρ (sq a) = sq (subst ρ a) := by simp [Shipped.sq, subst_pow h, subst_int]
theorem subst_cube (a : Ex) : subst ρ (cube a) = cube (subst ρ a) := by simp [cube, subst_pow h, subst_int]
theorem subst_root3 (a : Ex) : subst ρ (root3 a) = root3 (subst ρ a) := by simp [root3, subst_pow h, subst_dv h, subst_int]
theorem subst_sols (x : Ex) (l : List Ex) : subst ρ (sols x l) = sols (subst ρ x) (l.map (subst ρ)) := by
  simp [sols, subst_list h, subst_arrow h, Function.comp_def]

/-- Computes the right side of a rule with the names replaced. -/
local macro "subst_step" "[" ts:Lean.Parser.Tactic.simpLemma,* "]" : tactic =>
  `(tactic| simp only [subst_int, subst_add h, subst_mul h, subst_pow h, subst_root2 h, subst_list h, subst_arrow h, subst_i h, subst_neg h, subst_dv h, subst_sub h,
      subst_sq h, subst_cube h, subst_root3 h, subst_sols h, List.map_cons, List.map_nil, $ts,*])

theorem subst_quadratic (a b c : Ex) : (quadraticSols a b c).map (subst ρ) = quadraticSols (subst ρ a) (subst ρ b) (subst ρ c) := by
  subst_step [quadraticSols, disc2]

theorem subst_short (e d : Ex) : (quarticShortSols e d).map (subst ρ) = quarticShortSols (subst ρ e) (subst ρ d) := by subst_step [quarticShortSols]

theorem subst_cubicP (d c b : Ex) : subst ρ (cubicP d c b) = cubicP (subst ρ d) (subst ρ c) (subst ρ b) := by subst_step [cubicP]
theorem subst_cubicR (d c b a : Ex) : subst ρ (cubicR d c b a) = cubicR (subst ρ d) (subst ρ c) (subst ρ b) (subst ρ a) := by
  subst_step [cubicR, cubicQ, subst_cubicP h]
theorem subst_cubic (d c b a : Ex) : (cubicSols d c b a).map (subst ρ) = cubicSols (subst ρ d) (subst ρ c) (subst ρ b) (subst ρ a) := by
  subst_step [cubicSols, subst_cubicP h, subst_cubicR h]

theorem subst_quarticP (e d c b a : Ex) : subst ρ (quarticP e d c b a) = quarticP (subst ρ e) (subst ρ d) (subst ρ c) (subst ρ b) (subst ρ a) := by
  subst_step [quarticP]
theorem subst_quarticR (e d c b a : Ex) : subst ρ (quarticR e d c b a) = quarticR (subst ρ e) (subst ρ d) (subst ρ c) (subst ρ b) (subst ρ a) := by
  subst_step [quarticR, quarticQ, subst_quarticP h]
theorem subst_quarticS (e d c b a : Ex) : subst ρ (quarticS e d c b a) = quarticS (subst ρ e) (subst ρ d) (subst ρ c) (subst ρ b) (subst ρ a) := by
  subst_step [quarticS, subst_quarticP h, subst_quarticR h]
theorem subst_quarticT (e d c b a : Ex) : subst ρ (quarticT e d c b a) = quarticT (subst ρ e) (subst ρ d) (subst ρ c) (subst ρ b) (subst ρ a) := by
  subst_step [quarticT, subst_quarticR h]
theorem subst_quarticU (e d c b a : Ex) : subst ρ (quarticU e d c b a) = quarticU (subst ρ e) (subst ρ d) (subst ρ c) (subst ρ b) (subst ρ a) := by
  subst_step [quarticU, subst_quarticS h, subst_quarticT h]
theorem subst_quarticG (e d c b a : Ex) : subst ρ (quarticG e d c b a) = quarticG (subst ρ e) (subst ρ d) (subst ρ c) (subst ρ b) (subst ρ a) := by
  subst_step [quarticG, subst_quarticU h]
theorem subst_quarticW1 (e d c b a : Ex) : subst ρ (quarticW1 e d c b a) = quarticW1 (subst ρ e) (subst ρ d) (subst ρ c) (subst ρ b) (subst ρ a) := by
  subst_step [quarticW1, subst_quarticS h, subst_quarticT h, subst_quarticG h]
theorem subst_quarticW2 (e d c b a : Ex) : subst ρ (quarticW2 e d c b a) = quarticW2 (subst ρ e) (subst ρ d) (subst ρ c) (subst ρ b) (subst ρ a) := by
  subst_step [quarticW2, subst_quarticS h, subst_quarticT h, subst_quarticG h]
theorem subst_quartic (e d c b a : Ex) : (quarticSols e d c b a).map (subst ρ) = quarticSols (subst ρ e) (subst ρ d) (subst ρ c) (subst ρ b) (subst ρ a) := by
  subst_step [quarticSols, halfRoot, subst_quarticU h, subst_quarticW1 h, subst_quarticW2 h]
theorem subst_quarticShort (e d : Ex) : (quarticShortSols e d).map (subst ρ) = quarticShortSols (subst ρ e) (subst ρ d) := by
  subst_step [quarticShortSols]

theorem subst_ifFree (e : Ex) (l : List String) : subst ρ (ifFree e l) = Shipped.cond (subst ρ e) (call "FreeQ" [list (l.map (fun y => subst ρ (var y))), subst ρ (var "x")]) := by
  unfold ifFree
  rw [Shipped.cond, subst_sys (h _ (by decide)), List.map_cons, List.map_cons, List.map_nil, subst_sys (s := "FreeQ") (h _ (by decide)), List.map_cons, List.map_cons, List.map_nil,
    subst_list h, List.map_map]
  rfl

end

/-- A binding of names only. -/
theorem notBound_of {ρ : String → Option Ex} {p : Ex} (ho : OnlyNames ρ p) (h : solveConsts.all (fun s => !(patNames p).contains s) = true) : NotBound ρ := by
  intro s hs
  rw [List.all_eq_true] at h
  have := h s hs
  exact ho.none (by simpa using this)

/-- What an application of a rule means. -/
theorem ruleGives_match {env : MEnv} [env.Exact] {locals : Ex → Option Ex} {heads : List String} {lhs rhs e r : Ex} (hp : EPat (held lhs))
    (h : RuleGives env locals heads (def_ lhs rhs) e r) :
    ∃ ρ, ClashFree env heads (held lhs) e ρ ∧ Matches env ρ (held lhs) e ∧ OnlyNames ρ (held lhs) ∧ Yields env locals (subst ρ rhs) r := by
  obtain ⟨he, m, n, h, hc⟩ := h
  unfold replace at h
  split at h
  · simp at h
  · rename_i rs pm' hm
    obtain ⟨l, b, t, rfl, hy, _⟩ := replaceLoop_some h
    exact ⟨bindingsOf b, hc _ _ hm b (by simp), matchF_matches hp he hm b (by simp), matchF_names hp hm b (by simp), hy⟩

theorem yields_cond {env : MEnv} {locals : Ex → Option Ex} {a c r : Ex} (h : Yields env locals (Shipped.cond a c) r) : env.isTrue c = true ∧ Yields env locals a r := by
  change Yields env locals (.expr [S "Condition", a, c]) r at h
  generalize hq : Ex.expr [S "Condition", a, c] = q at h
  cases h with
  | plain hc => rw [← hq] at hc; simp [hasHead, S] at hc
  | inner hc => rw [← hq] at hc; simp [hasHead, S] at hc
  | cond hc hy =>
    simp only [S, Ex.expr.injEq, List.cons.injEq] at hq
    obtain ⟨_, rfl, rfl, _⟩ := hq
    exact ⟨hc, hy⟩

/-- The right side of a rule without condition. -/
theorem yields_call {env : MEnv} {locals : Ex → Option Ex} (hL : LocalsOk locals) {s : String} {l : List Ex} {r : Ex}
    (hs : s ≠ "System`Condition" ∧ s ≠ "System`With" ∧ s ≠ "System`Module") (h : Yields env locals (.expr (.sym s :: l)) r) : r = .expr (.sym s :: l) :=
  h.self (by simp [hasHead, hs.1]) (hL _ (by simp [hasHead, hs.2.1]) (by simp [hasHead, hs.2.2]))

/-- The arithmetic functions. -/
def polyHeads : List String := ["System`Plus", "System`Times", "System`Power"]

section
variable {env : MEnv} {pl : List String} (hE : ArithEnv env pl)
include hE

theorem arith_lawful (V : Interp) {s : String} (hs : s ∈ polyHeads) : V.meaning.Lawful env s := by
  simp only [polyHeads, List.mem_cons, List.not_mem_nil, or_false] at hs
  rcases hs with rfl | rfl | rfl
  · refine ⟨fun _ _ _ _ => plus_flat (.inl rfl), fun _ _ _ h => plus_perm (.inl rfl) h, fun _ => plus_one, fun d hd xs => ?_⟩
    rw [hE.plus.2.2.2] at hd
    cases hd
    rw [argVals_int, plus_append, plus_one]
    cases V.meaning.op "System`Plus" xs <;> simp
  · refine ⟨fun _ _ _ _ => plus_flat (.inr rfl), fun _ _ _ h => plus_perm (.inr rfl) h, fun _ => times_one, fun d hd xs => ?_⟩
    rw [hE.times.2.2.2] at hd
    cases hd
    rw [argVals_int, times_append, times_one]
    cases V.meaning.op "System`Times" xs <;> simp
  · refine ⟨fun h => ?_, fun h => ?_, fun _ => power_one, fun d hd xs => ?_⟩
    · rw [hE.power.1] at h; cases h
    · rw [hE.power.2.1] at h; cases h
    · rw [hE.power.2.2.2] at hd
      cases hd
      rw [argVals_int, Int.cast_one, power_dflt]

/-- A match of `f[pat, x_]` with an arithmetic pattern. -/
theorem poly_match {f : String} (hf : f ∈ pl) (hsp : f ∉ specialHeads) {pat P : Ex} {x : String} {ρ : String → Option Ex}
    (hc : ClashFree env polyHeads (held (.expr [.sym f, pat, any "x"])) (.expr [.sym f, P, .sym x]) ρ)
    (hm : Matches env ρ (held (.expr [.sym f, pat, any "x"])) (.expr [.sym f, P, .sym x]))
    (hp : FPat env (· ∈ polyHeads) pat) (hn : argName pat = none) (hopt : isOptional pat = false) :
    ρ "Private`x" = some (.sym x) ∧ (∀ t ∈ namedArgs pat, Taken env (fun _ => True) ρ t.1 t.2.1 t.2.2) ∧
      ∀ V : Interp, V.meaning.argVals (fill ρ pat) = V.meaning.argVals P := by
  obtain ⟨T, hD, hT⟩ := hc
  have hsub : ∀ q ∈ subexprs (.expr [.sym f, pat, any "x"]), q ∈ subexprs (held (.expr [.sym f, pat, any "x"])) := by
    intro q hq
    exact subexprs_arg (ps := [.expr [.sym f, pat, any "x"]]) (List.mem_singleton.2 rfl) hq
  obtain ⟨cs, k1, k2⟩ := args_inv hD hsp (hE.plain f hf).1 (hE.plain f hf).2 hsub (pieces_self _) (by simp [hopt, show isOptional (any "x") = false from rfl]) (by
    intro p hp'
    simp only [List.mem_cons, List.not_mem_nil, or_false] at hp'
    rcases hp' with rfl | rfl
    · rw [shape_fpat hp hn]; exact ⟨rfl, rfl⟩
    · rw [shape_any]; exact ⟨rfl, rfl⟩) (matches_hold_inv hm)
  simp only [partsOf, Option.some.injEq, List.cons.injEq, true_and] at k1
  subst k1
  cases k2 with
  | cons t1 k2 =>
    cases k2 with
    | cons t2 k2 =>
      have hP : P ∈ pieces (.expr [.sym f, P, .sym x]) := pieces_arg (by simp) (pieces_self P)
      have hx : (Ex.sym x) ∈ pieces (.expr [.sym f, P, .sym x]) := pieces_arg (by simp) (pieces_self _)
      have hD' : Distinct env (· ∈ polyHeads) (· ∈ subexprs pat) (· ∈ pieces P) T :=
        hD.sub (fun _ h => h) (fun q hq => hsub q (subexprs_arg (by simp) hq)) (fun b hb => pieces_arg (by simp) hb) (pieces_part P) (pieces_opened P)
      have hm1 := t1.1
      rw [shape_fpat hp hn] at hm1
      have key := fun V : Interp => fill_matches (M := V.meaning) (fun s hs => arith_lawful hE V hs) hD' hT (sizeOf pat + 1) pat P (by omega) hp (fun q hq => hq) (pieces_self P) hm1
      exact ⟨takes_any hD hT hx t2, fun t ht => ((key ⟨fun _ => none, fun _ _ => none⟩).2 t ht).mono (fun _ _ => trivial), fun V => (key V).1⟩

/-- A match of `f[x1_, x2_, ...]`. -/
theorem names_match {f : String} (hf : f ∈ pl) (hsp : f ∉ specialHeads) {names : List String} {cs : List Ex} {ρ : String → Option Ex}
    (hc : ClashFree env polyHeads (held (.expr (.sym f :: names.map any))) (.expr (.sym f :: cs)) ρ)
    (hm : Matches env ρ (held (.expr (.sym f :: names.map any))) (.expr (.sym f :: cs))) :
    List.Forall₂ (fun y c => ρ ("Private`" ++ y) = some c ∧ hasHead "System`Sequence" c = false) names cs := by
  obtain ⟨T, hD, hT⟩ := hc
  obtain ⟨cs', k1, k2⟩ := args_inv hD hsp (hE.plain f hf).1 (hE.plain f hf).2
    (fun q hq => subexprs_arg (ps := [.expr (.sym f :: names.map any)]) (List.mem_singleton.2 rfl) hq) (pieces_self _) (by
      rw [List.any_eq_false]
      intro p hp
      obtain ⟨y, _, rfl⟩ := List.mem_map.1 hp
      simp [isOptional, any, S]) (by
    intro p hp
    obtain ⟨y, _, rfl⟩ := List.mem_map.1 hp
    rw [shape_any]; exact ⟨rfl, rfl⟩) (matches_hold_inv hm)
  simp only [partsOf, Option.some.injEq, List.cons.injEq, true_and] at k1
  subst k1
  rw [List.forall₂_map_left_iff] at k2
  rw [List.forall₂_iff_get] at k2 ⊢
  refine ⟨k2.1, fun i h1 h2 => ?_⟩
  have hmem : cs.get ⟨i, h2⟩ ∈ pieces (.expr (.sym f :: cs)) := pieces_arg (List.mem_cons_of_mem _ (List.get_mem cs _)) (pieces_self _)
  exact ⟨takes_any hD hT hmem (k2.2 i h1 h2), hD.noSeq _ hmem⟩

end
end Expreduce
