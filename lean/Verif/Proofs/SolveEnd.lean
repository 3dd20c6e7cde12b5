import Verif.Proofs.SolveSub

/-! From the polynomial to its zeros. -/

namespace Expreduce
open Ex Shipped

section
variable {V : Interp} {x : String}

/-- The values of the arguments. -/
theorem den_inv {s : String} {es : List Ex} {v : ℂ} (hs : s ≠ "System`Sequence") (hq : ∀ e ∈ es, hasHead "System`Sequence" e = false)
    (h : V.Denotes (.expr (.sym s :: es)) v) : ∃ vs, List.Forall₂ V.Denotes es vs ∧ arithValue V s vs = some v := by
  unfold Interp.Denotes at h
  rw [Meaning.argVals_app hs, List.cons.injEq] at h
  obtain ⟨l, h1, h2⟩ := meaning_op_def V h.1
  refine ⟨l, ?_, h2⟩
  clear h h2
  induction es generalizing l with
  | nil =>
    cases l with
    | nil => exact .nil
    | cons => simp [Meaning.vals_nil] at h1
  | cons e es ih =>
    rw [Meaning.vals_cons, Meaning.argVals_one _ (hq e (by simp))] at h1
    cases l with
    | nil => simp at h1
    | cons w l =>
      simp only [List.cons_append, List.nil_append, List.map_cons, List.cons.injEq] at h1
      refine .cons ?_ (ih (fun e he => hq e (by simp [he])) l h1.2)
      unfold Interp.Denotes
      rw [Meaning.argVals_one _ (hq e (by simp)), h1.1]

theorem den_unique {e : Ex} {v w : ℂ} (h1 : V.Denotes e v) (h2 : V.Denotes e w) : v = w := by
  unfold Interp.Denotes at h1 h2
  rw [h1] at h2
  simpa using h2

theorem den_var (hx : isVariable x) (z : ℂ) : (V.put x z).Denotes (.sym x) z := by
  unfold Interp.Denotes
  rw [Meaning.argVals_one _ (by rfl)]
  change [atomValue (V.put x z) (.sym x)] = _
  have hn : ∀ s, s ∈ ["System`E", "System`Pi", "System`I", "System`Infinity", "System`ComplexInfinity", "System`Indeterminate"] → x ≠ s := fun s hs h => hx (h ▸ hs)
  have h1 := hn "System`Infinity" (by decide)
  have h2 := hn "System`ComplexInfinity" (by decide)
  have h3 := hn "System`Indeterminate" (by decide)
  simp [atomValue, Interp.put, noNumber, h1, h2, h3]

theorem const_of {e : Ex} {v : ℂ} (hf : .sym x ∉ pieces e) (z : ℂ) (h : (V.put x z).Denotes e v) : IsFunction V x e (fun _ => v) := by
  intro w
  unfold Interp.Denotes at h ⊢
  rw [← h]
  exact val_free w z _ e (Nat.lt_succ_self _) hf

theorem powValue_natCast {z : ℂ} {n : Nat} (hn : n ≠ 0) : powValue z (n : ℂ) = some (z ^ n) := by
  unfold powValue
  split
  · rename_i h
    have h1 : (0 : ℝ) < (n : ℂ).re := by simp; omega
    have h2 : (n : ℂ) ≠ 0 := by exact_mod_cast hn
    simp [h, hn, h2]
  · simp

theorem den_monomial (hx : isVariable x) {A : Ex} {a z : ℂ} {n : Nat} (hn : n ≠ 0) (hA : (V.put x z).Denotes A a) :
    (V.put x z).Denotes (mul [A, pow (.sym x) (.int n)]) (a * z ^ n) :=
  den_mul2 hA (den_pow (den_var hx z) (den_int _) (by simpa using powValue_natCast hn))

/-- A coefficient. -/
theorem coef_of {A : Ex} {t : Ex} (hq : hasHead "System`Sequence" A = false) (ht : hasHead "System`Sequence" t = false) (hf : .sym x ∉ pieces A)
    (h : ∃ z v, (V.put x z).Denotes (mul [A, t]) v) : ∃ a, IsFunction V x A (fun _ => a) := by
  obtain ⟨z, v, h⟩ := h
  obtain ⟨vs, h1, _⟩ := den_inv (s := "System`Times") (by decide) (by simp [hq, ht]) h
  cases h1 with
  | cons h1 _ => exact ⟨_, const_of hf z h1⟩

/-- The terms of a sum have values. -/
theorem terms_of {es : List Ex} {v : ℂ} (hq : ∀ e ∈ es, hasHead "System`Sequence" e = false) (h : V.Denotes (add es) v) :
    ∃ vs, List.Forall₂ V.Denotes es vs ∧ v = vs.sum := by
  obtain ⟨vs, h1, h2⟩ := den_inv (s := "System`Plus") (by decide) hq h
  refine ⟨vs, h1, ?_⟩
  rw [arith_plus] at h2
  exact (Option.some.inj h2).symm

theorem noSeq_mul (l : List Ex) : hasHead "System`Sequence" (mul l) = false := by simp [hasHead, mul, call, S]
theorem noSeq_pow (a b : Ex) : hasHead "System`Sequence" (pow a b) = false := by simp [hasHead, pow, call, S]

/-- Terms `A x^n` and `A x`, or a constant. -/
inductive TermOf (x : String) (A : Ex) : Nat → Ex → Prop
  | pow {n : Nat} : 2 ≤ n → TermOf x A n (mul [A, pow (.sym x) (.int n)])
  | one : TermOf x A 1 (mul [A, .sym x])
  | const : TermOf x A 0 A

/-- The coefficients of a sum of terms. -/
theorem coefs_of (hx : isVariable x) : ∀ {As : List Ex} {ns : List Nat} {es : List Ex}, List.Forall₂ (fun (An : Ex × Nat) e => TermOf x An.1 An.2 e) (As.zip ns) es →
    As.length = ns.length → (∀ A ∈ As, hasHead "System`Sequence" A = false) → (∀ A ∈ As, .sym x ∉ pieces A) →
    (∀ z, ∃ vs, List.Forall₂ (V.put x z).Denotes es vs) → ∃ as : List ℂ, List.Forall₂ (fun A a => IsFunction V x A (fun _ => a)) As as ∧
      ∀ z vs, List.Forall₂ (V.put x z).Denotes es vs → vs.sum = ((as.zip ns).map (fun an => an.1 * z ^ an.2)).sum
  | [], ns, es, h, hl, hq, hf, hd => by
    cases ns with
    | nil =>
      cases h
      exact ⟨[], .nil, fun z vs h => by cases h; simp⟩
    | cons => simp at hl
  | A :: As, [], _, _, hl, _, _, _ => by simp at hl
  | A :: As, n :: ns, es, h, hl, hq, hf, hd => by
    rw [List.zip_cons_cons] at h
    cases h with
    | @cons _ e _ es h1 h2 =>
      obtain ⟨as, k1, k2⟩ := coefs_of hx h2 (by simpa using hl) (fun A hA => hq A (by simp [hA])) (fun A hA => hf A (by simp [hA])) (fun z => by
        obtain ⟨vs, hvs⟩ := hd z
        cases hvs with
        | cons _ h => exact ⟨_, h⟩)
      have hqA := hq A (by simp)
      have hfA := hf A (by simp)
      obtain ⟨a, ha⟩ : ∃ a, IsFunction V x A (fun _ => a) := by
        obtain ⟨vs, hvs⟩ := hd 0
        cases hvs with
        | cons h _ =>
          cases h1 with
          | pow hn => exact coef_of hqA (noSeq_pow _ _) hfA ⟨_, _, h⟩
          | one => exact coef_of hqA rfl hfA ⟨_, _, h⟩
          | const => exact ⟨_, const_of hfA 0 h⟩
      refine ⟨a :: as, .cons ha k1, fun z vs hvs => ?_⟩
      cases hvs with
      | cons h t =>
        rw [List.sum_cons, k2 z _ t, List.zip_cons_cons, List.map_cons, List.sum_cons]
        congr 1
        refine den_unique h ?_
        cases h1 with
        | pow hn => exact den_monomial hx (by omega) (ha z)
        | one => simpa using den_mul2 (ha z) (den_var hx z)
        | const => simpa using ha z

/-- A sum of terms is a polynomial. -/
theorem poly_coefs (hx : isVariable x) {As : List Ex} {ns : List Nat} {es : List Ex} (h : List.Forall₂ (fun (An : Ex × Nat) e => TermOf x An.1 An.2 e) (As.zip ns) es)
    (hl : As.length = ns.length) (hq : ∀ A ∈ As, hasHead "System`Sequence" A = false) (hf : ∀ A ∈ As, .sym x ∉ pieces A) {p : ℂ → ℂ} (hp : IsFunction V x (add es) p) :
    ∃ as : List ℂ, List.Forall₂ (fun A a => IsFunction V x A (fun _ => a)) As as ∧ ∀ z, p z = ((as.zip ns).map (fun an => an.1 * z ^ an.2)).sum := by
  have hqe : ∀ e ∈ es, hasHead "System`Sequence" e = false := by
    intro e he
    clear hp
    induction h' : As.zip ns generalizing As ns es with
    | nil => rw [h'] at h; cases h; cases he
    | cons An l ih =>
      rw [h'] at h
      cases h with
      | cons h1 h2 =>
        rcases List.mem_cons.1 he with rfl | he
        · obtain ⟨A, n⟩ := An
          simp only at h1
          cases h1 with
          | pow => exact noSeq_mul _
          | one => exact noSeq_mul _
          | const =>
            refine hq _ ?_
            have : (e, 0) ∈ As.zip ns := by rw [h']; simp
            exact (List.of_mem_zip this).1
        · cases As with
          | nil => simp at h'
          | cons A As =>
            cases ns with
            | nil => simp at h'
            | cons n ns =>
              rw [List.zip_cons_cons, List.cons.injEq] at h'
              exact ih (h'.2 ▸ h2) (by simpa using hl) (fun A hA => hq A (by simp [hA])) (fun A hA => hf A (by simp [hA])) he h'.2
  obtain ⟨as, k1, k2⟩ := coefs_of hx h hl hq hf (fun z => by
    obtain ⟨vs, h1, _⟩ := terms_of hqe (hp z)
    exact ⟨vs, h1⟩)
  refine ⟨as, k1, fun z => ?_⟩
  obtain ⟨vs, h1, h2⟩ := terms_of hqe (hp z)
  rw [h2, k2 z vs h1]

end

section
variable {env : MEnv} [env.Exact] {locals : Ex → Option Ex} {pl : List String} (hE : ArithEnv env pl) (hL : LocalsOk locals)

include hE in
/-- A rule that reads off coefficients. -/
theorem coef_rule {x f : String} (hfree : FreeOk env.isTrue x) {pat rhs P r : Ex} {names : List String} (hf : "Private`" ++ f ∈ pl)
    (hsp : "Private`" ++ f ∉ specialHeads) (hep : EPat (held (callP f [pat, any "x"]))) (hp : FPat env (· ∈ polyHeads) pat) (hn : argName pat = none) (hopt : isOptional pat = false)
    (hb : solveConsts.all (fun s => !(patNames (held (callP f [pat, any "x"]))).contains s) = true)
    (h : RuleGives env locals polyHeads (def_ (callP f [pat, any "x"]) (ifFree rhs names)) (callP f [P, .sym x]) r) :
    ∃ ρ, NotBound ρ ∧ ρ "Private`x" = some (.sym x) ∧ (∀ t ∈ namedArgs pat, Taken env (fun _ => True) ρ t.1 t.2.1 t.2.2) ∧ (∀ y ∈ names, .sym x ∉ pieces (subst ρ (var y))) ∧
      (∀ V : Interp, V.meaning.argVals (fill ρ pat) = V.meaning.argVals P) ∧ Yields env locals (subst ρ rhs) r := by
  obtain ⟨ρ, h1, h2, h3, h4⟩ := ruleGives_match hep h
  have hu := notBound_of h3 hb
  obtain ⟨k1, k2, k3⟩ := poly_match hE hf hsp h1 h2 hp hn hopt
  rw [subst_ifFree hu] at h4
  obtain ⟨k4, k5⟩ := yields_cond h4
  refine ⟨ρ, hu, k1, k2, fun y hy hc => ?_, k3, k5⟩
  have hxv : subst ρ (var "x") = .sym x := by simp [var, subst, k1]
  rw [hxv] at k4
  refine hfree _ k4 (pieces_arg (a := subst ρ (var y)) ?_ hc)
  simp only [List.mem_cons, List.mem_map]
  exact .inr ⟨y, hy, rfl⟩

include hE in
/-- A rule with a formula. -/
theorem formula_rule {f : String} {names : List String} {cs : List Ex} {rhs r : Ex} (hf : "Private`" ++ f ∈ pl)
    (hsp : "Private`" ++ f ∉ specialHeads) (hep : EPat (held (callP f (names.map any))))
    (hb : solveConsts.all (fun s => !(patNames (held (callP f (names.map any)))).contains s) = true)
    (h : RuleGives env locals polyHeads (def_ (callP f (names.map any)) rhs) (callP f cs) r) :
    ∃ ρ, NotBound ρ ∧ List.Forall₂ (fun y c => subst ρ (var y) = c ∧ hasHead "System`Sequence" c = false) names cs ∧ Yields env locals (subst ρ rhs) r := by
  obtain ⟨ρ, h1, h2, h3, h4⟩ := ruleGives_match hep h
  refine ⟨ρ, notBound_of h3 hb, ?_, h4⟩
  exact (names_match hE hf hsp h1 h2).imp (fun y c h => ⟨by simp [var, subst, h.1], h.2⟩)

/-- The coefficient `a` in `a_.*x_^n`. -/
theorem taken_coef {env : MEnv} {pl : List String} (hE : ArithEnv env pl) {ρ : String → Option Ex} {y : String}
    (ht : Taken env (fun _ => True) ρ false "System`Times" (opt (any y))) : hasHead "System`Sequence" (subst ρ (var y)) = false := by
  have hshape : callShape env false "System`Times" (opt (any y)) = ⟨0, unlimited, .expr [S "Blank"], some ("Private`" ++ y), true, .sym "System`Times", some (.int 1)⟩ := by
    have hb : isBlank (.expr [.sym "System`Blank"]) = true := by decide
    simp [callShape, shape, opt, any, call, var, S, optShape, optNamed, optBody, hE.times, hb]
  obtain ⟨w, h1, h2, _⟩ := ht.optArg (x := "Private`" ++ y) (d := .int 1) (by simp [opt, any, call, var, S, argName, testName, coreName]) (by rw [hshape])
    rfl (by rw [hshape]) (.inl ⟨by rw [hshape], by decide⟩)
  simpa [var, subst, h1] using h2

/-! ### No value -/

theorem NoValue.not {V : Interp} {e : Ex} (h : NoValue V e) (v : ℂ) : ¬ V.Denotes e v := by
  unfold NoValue at h
  unfold Interp.Denotes
  rw [h]
  simp

theorem allSome_none {l : List (Option ℂ)} (h : none ∈ l) : allSome l = none := by
  cases hl : allSome l with
  | none => rfl
  | some vs =>
    rw [allSome_map] at hl
    rw [hl] at h
    simp at h

theorem noValue_app {V : Interp} {s : String} {es : List Ex} {e : Ex} (hs : s ≠ "System`Sequence") (he : e ∈ es) (h : NoValue V e) : NoValue V (.expr (.sym s :: es)) := by
  unfold NoValue at *
  rw [Meaning.argVals_app hs, meaning_op, allSome_none]
  · rfl
  · clear hs
    induction es with
    | nil => cases he
    | cons a es ih =>
      rw [Meaning.vals_cons, List.mem_append]
      rcases List.mem_cons.1 he with rfl | he
      · rw [h]; simp
      · exact .inr (ih he)

theorem noValue_add {V : Interp} {es : List Ex} {e : Ex} (he : e ∈ es) (h : NoValue V e) : NoValue V (add es) := noValue_app (s := "System`Plus") (by decide) he h
theorem noValue_mul {V : Interp} {es : List Ex} {e : Ex} (he : e ∈ es) (h : NoValue V e) : NoValue V (mul es) := noValue_app (s := "System`Times") (by decide) he h
theorem noValue_neg {V : Interp} {e : Ex} (h : NoValue V e) : NoValue V (neg e) := noValue_mul (by simp) h
theorem noValue_root2 {V : Interp} {e : Ex} (h : NoValue V e) : NoValue V (root2 e) := noValue_app (s := "System`Sqrt") (by decide) (by simp) h
theorem noValue_root3 {V : Interp} {e : Ex} (h : NoValue V e) : NoValue V (root3 e) := noValue_app (s := "System`Power") (by decide) (by simp) h

/-- Division by 0. -/
theorem noValue_dv {V : Interp} {a b : Ex} (h : V.Denotes b 0) : NoValue V (dv a b) := by
  refine noValue_mul (e := pow b (.int (-1))) (by simp) ?_
  unfold NoValue
  change V.meaning.argVals (.expr [.sym "System`Power", b, .int (-1)]) = _
  rw [Meaning.argVals_app (by decide), Meaning.vals_cons, Meaning.vals_cons, Meaning.vals_nil, show V.meaning.argVals b = _ from h, argVals_int]
  simp only [List.cons_append, List.nil_append, List.append_nil]
  rw [power_two]
  simp [powValue]

theorem noValue_dv_num {V : Interp} {a b : Ex} (h : NoValue V a) : NoValue V (dv a b) := noValue_mul (by simp) h
theorem noValue_dv_den {V : Interp} {a b : Ex} (h : NoValue V b) : NoValue V (dv a b) :=
  noValue_mul (e := pow b (.int (-1))) (by simp) (noValue_app (s := "System`Power") (by decide) (by simp) h)

theorem zero_third : (0 : ℂ) ^ ((1 : ℂ) / 3) = 0 := Complex.zero_cpow (by norm_num)
theorem zero_half : (0 : ℂ) ^ ((1 : ℂ) / 2) = 0 := Complex.zero_cpow (by norm_num)

/-- If the number below the cube root is 0, no solution has a value. -/
theorem cubic_noValue {V : Interp} (hS : V.Standard) {D C B A : Ex} {d c b a : ℂ} (hD : V.Denotes D d) (hC : V.Denotes C c) (hB : V.Denotes B b) (hA : V.Denotes A a)
    (h : cubicRad d c b a = 0) : ∀ e ∈ cubicSols D C B A, NoValue V e := by
  have hR : V.Denotes (root3 (cubicR D C B A)) 0 := den_eq (den_root3 (den_cubicR hS hD hC hB hA)) (by rw [h, zero_third])
  have h1 := den_eq (den_mul3 (den_nat 3) hD hR) (mul_zero _)
  have hk2 : V.Denotes (pow (.int 2) (dv (.int 2) (.int 3))) (((2 : ℂ) ^ ((1 : ℂ) / 3)) ^ 2) :=
    two_thirds ▸ den_pow (den_nat 2) (den_dv (den_nat 2) (den_nat 3) three_ne_zero) (powValue_root two_re)
  have h2 := den_eq (den_mul4 (den_nat 3) hk2 hD hR) (mul_zero _)
  intro e he
  simp only [cubicSols, List.mem_cons, List.not_mem_nil, or_false] at he
  rcases he with rfl | rfl | rfl
  · exact noValue_add (List.mem_cons_of_mem _ (List.mem_cons_self ..)) (noValue_neg (noValue_dv h1))
  · exact noValue_add (List.mem_cons_of_mem _ (List.mem_cons_self ..)) (noValue_dv h2)
  · exact noValue_add (List.mem_cons_of_mem _ (List.mem_cons_self ..)) (noValue_dv h2)

/-- If the expressions below the square roots have no value, no solution has. -/
theorem quartic_noU {V : Interp} {E D C B A : Ex} (h : NoValue V (quarticU E D C B A)) : ∀ s ∈ quarticSols E D C B A, NoValue V s := by
  have hU : NoValue V (halfRoot (quarticU E D C B A)) := noValue_mul (List.mem_cons_of_mem _ (List.mem_cons_self ..)) (noValue_root2 h)
  intro s hs
  simp only [quarticSols, List.mem_cons, List.not_mem_nil, or_false] at hs
  rcases hs with rfl | rfl | rfl | rfl
  · exact noValue_add (List.mem_cons_of_mem _ (List.mem_cons_self ..)) (noValue_neg hU)
  · exact noValue_add (List.mem_cons_of_mem _ (List.mem_cons_self ..)) (noValue_neg hU)
  · exact noValue_add (List.mem_cons_of_mem _ (List.mem_cons_self ..)) hU
  · exact noValue_add (List.mem_cons_of_mem _ (List.mem_cons_self ..)) hU

theorem quartic_noG {V : Interp} {E D C B A : Ex} (h : NoValue V (quarticG E D C B A)) : ∀ s ∈ quarticSols E D C B A, NoValue V s := by
  have h1 : NoValue V (halfRoot (quarticW1 E D C B A)) := noValue_mul (List.mem_cons_of_mem _ (List.mem_cons_self ..)) (noValue_root2
    (noValue_add (List.mem_cons_of_mem _ (List.mem_cons_of_mem _ (List.mem_cons_of_mem _ (List.mem_cons_of_mem _ (List.mem_cons_self ..))))) (noValue_neg h)))
  have h2 : NoValue V (halfRoot (quarticW2 E D C B A)) := noValue_mul (List.mem_cons_of_mem _ (List.mem_cons_self ..)) (noValue_root2
    (noValue_add (List.mem_cons_of_mem _ (List.mem_cons_of_mem _ (List.mem_cons_of_mem _ (List.mem_cons_of_mem _ (List.mem_cons_self ..))))) h))
  intro s hs
  simp only [quarticSols, List.mem_cons, List.not_mem_nil, or_false] at hs
  rcases hs with rfl | rfl | rfl | rfl
  · exact noValue_add (List.mem_cons_of_mem _ (List.mem_cons_of_mem _ (List.mem_cons_self ..))) (noValue_neg h1)
  · exact noValue_add (List.mem_cons_of_mem _ (List.mem_cons_of_mem _ (List.mem_cons_self ..))) h1
  · exact noValue_add (List.mem_cons_of_mem _ (List.mem_cons_of_mem _ (List.mem_cons_self ..))) (noValue_neg h2)
  · exact noValue_add (List.mem_cons_of_mem _ (List.mem_cons_of_mem _ (List.mem_cons_self ..))) h2

/-- If the number below the cube root or that below the first square root is 0, no solution has a value. -/
theorem quartic_noValue {V : Interp} (hS : V.Standard) {E D C B A : Ex} {e d c b a : ℂ} (hE : V.Denotes E e) (hD : V.Denotes D d) (hC : V.Denotes C c) (hB : V.Denotes B b)
    (hA : V.Denotes A a) (he : e ≠ 0) (h : quarticRad e d c b a = 0 ∨ quarticRoot e d c b a = 0) : ∀ s ∈ quarticSols E D C B A, NoValue V s := by
  by_cases h0 : quarticRad e d c b a = 0
  · have hR : V.Denotes (root3 (quarticR E D C B A)) 0 := den_eq (den_root3 (den_quarticR hS hE hD hC hB hA)) (by rw [h0, zero_third])
    exact quartic_noU (noValue_add (List.mem_cons_of_mem _ (List.mem_cons_of_mem _ (List.mem_cons_self ..)))
      (noValue_dv (den_eq (den_mul3 (den_nat 3) hE hR) (mul_zero _))))
  · have hU := den_quarticU hS hE hD hC hB hA he h0
    rw [h.resolve_left h0] at hU
    exact quartic_noG (noValue_dv (den_eq (den_mul2 (den_nat 4) (den_root2 hS hU)) (by rw [zero_half, mul_zero])))

end
end Expreduce
