import Verif.Proofs.Generic
import Verif.Proofs.ShippedAll
import Mathlib.Analysis.SpecialFunctions.Trigonometric.DerivHyp

/-! Expressions as functions of one variable. -/

namespace Expreduce
open Ex Filter Topology

/-- A function of one variable, from its values where it is defined, if that is mostly. -/
noncomputable def lift (f : ℂ → Option ℂ) : Option (ℂ → ℂ) :=
  open Classical in if ∀ᶠ z in mostly, (f z).isSome = true then some (fun z => (f z).getD 0) else none

/-- The derivative, if the second argument is the variable. -/
noncomputable def diffOp : List (ℂ → ℂ) → Option (ℂ → ℂ)
  | [F, X] => open Classical in if X =ᶠ[mostly] fun z => z then some (deriv F) else none
  | _ => none

/-- A function applied to functions. -/
noncomputable def funOp (V : Interp) (s : String) (Fs : List (ℂ → ℂ)) : Option (ℂ → ℂ) :=
  if s = "System`D" then diffOp Fs else lift (fun z => arithValue V s (Fs.map (· z)))

/-- The interpretation of expressions as functions of `x`. -/
noncomputable def funMeaning (V : Interp) (x : String) : Meaning (Option (ℂ → ℂ)) where
  atom := fun e => lift (fun z => atomValue (V.put x z) e)
  op := fun s xs => (allSome xs).bind (funOp V s)

/-- Where the first function is defined, the second one is, and they agree mostly. -/
def Agrees (a b : Option (ℂ → ℂ)) : Prop := ∀ F, a = some F → ∃ G, b = some G ∧ F =ᶠ[mostly] G

theorem Agrees.refl (a : Option (ℂ → ℂ)) : Agrees a a := fun F h => ⟨F, h, .rfl⟩
theorem Agrees.trans {a b c : Option (ℂ → ℂ)} (h1 : Agrees a b) (h2 : Agrees b c) : Agrees a c := by
  intro F h
  obtain ⟨G, hG, e1⟩ := h1 F h
  obtain ⟨K, hK, e2⟩ := h2 G hG
  exact ⟨K, hK, e1.trans e2⟩

theorem lift_some {f : ℂ → Option ℂ} {F : ℂ → ℂ} (h : lift f = some F) : ∀ᶠ z in mostly, f z = some (F z) := by
  unfold lift at h
  split at h
  · rename_i hs
    cases h
    filter_upwards [hs] with z hz
    obtain ⟨v, hv⟩ := Option.isSome_iff_exists.1 hz
    rw [hv]; rfl
  · cases h

theorem lift_def {f : ℂ → Option ℂ} (h : ∀ᶠ z in mostly, (f z).isSome = true) : ∃ F, lift f = some F := by
  unfold lift
  rw [if_pos h]
  exact ⟨_, rfl⟩

theorem lift_eq {f : ℂ → Option ℂ} {F : ℂ → ℂ} (h : ∀ z, f z = some (F z)) : lift f = some F := by
  unfold lift
  rw [if_pos (Eventually.of_forall fun z => by rw [h z]; rfl)]
  congr 1
  funext z
  rw [h z]; rfl

/-- `a` is defined exactly where the family `f` is mostly defined, and has its values. -/
def Link (a : Option (ℂ → ℂ)) (f : ℂ → Option ℂ) : Prop :=
  (∀ F, a = some F → ∀ᶠ z in mostly, f z = some (F z)) ∧ ((∀ᶠ z in mostly, (f z).isSome = true) → ∃ F, a = some F)

theorem link_lift (f : ℂ → Option ℂ) : Link (lift f) f := ⟨fun _ h => lift_some h, lift_def⟩

/-- Values at most points determine the function. -/
theorem Link.agrees {a b : Option (ℂ → ℂ)} {f g : ℂ → Option ℂ} (ha : Link a f) (hb : Link b g) (h : ∀ᶠ z in mostly, Refines (f z) (g z)) : Agrees a b := by
  intro F hF
  have h1 := ha.1 F hF
  have h2 : ∀ᶠ z in mostly, g z = some (F z) := by
    filter_upwards [h1, h] with z k1 k2
    exact k2 _ k1
  obtain ⟨G, hG⟩ := hb.2 (by filter_upwards [h2] with z hz; rw [hz]; rfl)
  refine ⟨G, hG, ?_⟩
  filter_upwards [h2, hb.1 G hG] with z k1 k2
  rw [k1] at k2
  exact Option.some.inj k2

theorem forall₂_some : ∀ {Fs : List (ℂ → ℂ)} {fs : List (ℂ → Option ℂ)}, List.Forall₂ Link (Fs.map some) fs →
    ∀ᶠ z in mostly, fs.map (· z) = (Fs.map (· z)).map some
  | [], _, .nil => Eventually.of_forall fun _ => rfl
  | F :: Fs, _, .cons h t => by
    filter_upwards [h.1 F rfl, forall₂_some t] with z k1 k2
    rw [List.map_cons, List.map_cons, List.map_cons, k1, k2]

theorem forall₂_def : ∀ {xs : List (Option (ℂ → ℂ))} {fs : List (ℂ → Option ℂ)}, List.Forall₂ Link xs fs →
    (∀ᶠ z in mostly, ∀ o ∈ fs.map (· z), o.isSome = true) → ∃ Fs : List (ℂ → ℂ), xs = Fs.map some
  | [], _, .nil, _ => ⟨[], rfl⟩
  | a :: xs, _, .cons (b := f) (l₂ := fs) h t, hs => by
    obtain ⟨F, rfl⟩ := h.2 (by filter_upwards [hs] with z hz; exact hz _ (by simp))
    obtain ⟨Fs, rfl⟩ := forall₂_def t (by filter_upwards [hs] with z hz; exact fun o ho => hz o (by simp only [List.map_cons, List.mem_cons]; exact .inr ho))
    exact ⟨F :: Fs, rfl⟩

section
variable {V : Interp} {x : String}

theorem arith_put (z : ℂ) (s : String) (l : List ℂ) : arithValue (V.put x z) s l = arithValue V s l := rfl

theorem link_op {s : String} (hs : s ≠ "System`D") {xs : List (Option (ℂ → ℂ))} {fs : List (ℂ → Option ℂ)} (h : List.Forall₂ Link xs fs) :
    Link ((funMeaning V x).op s xs) (fun z => (V.put x z).meaning.op s (fs.map (· z))) := by
  constructor
  · intro F hF
    simp only [funMeaning] at hF
    obtain ⟨Fs, h1, h2⟩ := Option.bind_eq_some_iff.1 hF
    rw [allSome_map.1 h1] at h
    rw [funOp, if_neg hs] at h2
    filter_upwards [lift_some h2, forall₂_some h] with z k1 k2
    rw [k2, meaning_op_some, arith_put, k1]
  · intro hd
    have hargs : ∀ᶠ z in mostly, ∀ o ∈ fs.map (· z), o.isSome = true := by
      filter_upwards [hd] with z hz o ho
      obtain ⟨v, hv⟩ := Option.isSome_iff_exists.1 hz
      obtain ⟨l, hl, _⟩ := meaning_op_def _ hv
      rw [hl] at ho
      obtain ⟨w, _, rfl⟩ := List.mem_map.1 ho
      rfl
    obtain ⟨Fs, rfl⟩ := forall₂_def h hargs
    simp only [funMeaning, allSome_some, Option.bind_some, funOp, if_neg hs]
    refine lift_def ?_
    filter_upwards [hd, forall₂_some h] with z k1 k2
    rw [k2, meaning_op_some, arith_put] at k1
    exact k1

/-- The family of values an expression without derivatives contributes as an argument. -/
def LinkArgs (V : Interp) (x : String) (e : Ex) : Prop :=
  ∃ fs : List (ℂ → Option ℂ), (∀ z, (V.put x z).meaning.argVals e = fs.map (· z)) ∧ List.Forall₂ Link ((funMeaning V x).argVals e) fs

theorem noDiff_part {ps : List Ex} {a : Ex} (h : noDiff (.expr ps) = true) (ha : a ∈ ps) : noDiff a = true := by
  simp only [noDiff, List.all_eq_true] at *
  exact fun b hb => h b (pieces_arg ha hb)

theorem link_list {args : List Ex} (h : ∀ a ∈ args, LinkArgs V x a) :
    ∃ fs : List (ℂ → Option ℂ), (∀ z, (V.put x z).meaning.vals args = fs.map (· z)) ∧ List.Forall₂ Link ((funMeaning V x).vals args) fs := by
  induction args with
  | nil => exact ⟨[], fun z => by simp [Meaning.vals], by simp [Meaning.vals]⟩
  | cons a args ih =>
    obtain ⟨f1, h1, h2⟩ := h a (by simp)
    obtain ⟨f2, h3, h4⟩ := ih (fun b hb => h b (by simp [hb]))
    refine ⟨f1 ++ f2, fun z => ?_, ?_⟩
    · rw [Meaning.vals_cons, h1, h3, List.map_append]
    · rw [Meaning.vals_cons]
      exact List.rel_append h2 h4

theorem link_atom {e : Ex} (h1 : (funMeaning V x).argVals e = [(funMeaning V x).atom e]) (h2 : ∀ z, (V.put x z).meaning.argVals e = [(V.put x z).meaning.atom e]) :
    LinkArgs V x e :=
  ⟨[fun z => atomValue (V.put x z) e], h2, by rw [h1]; exact .cons (link_lift _) .nil⟩

theorem link_two {s : String} (hs : s ≠ "System`D") {a b e : Ex} (h1 : (funMeaning V x).argVals e = [(funMeaning V x).op s [(funMeaning V x).atom a, (funMeaning V x).atom b]])
    (h2 : ∀ z, (V.put x z).meaning.argVals e = [(V.put x z).meaning.op s [(V.put x z).meaning.atom a, (V.put x z).meaning.atom b]]) : LinkArgs V x e := by
  have hl : List.Forall₂ Link [(funMeaning V x).atom a, (funMeaning V x).atom b]
      [fun z => (V.put x z).meaning.atom a, fun z => (V.put x z).meaning.atom b] := .cons (link_lift _) (.cons (link_lift _) .nil)
  refine ⟨[fun z => (V.put x z).meaning.op s [(V.put x z).meaning.atom a, (V.put x z).meaning.atom b]], fun z => h2 z, ?_⟩
  rw [h1]
  have h3 := link_op (V := V) (x := x) hs hl
  simp only [List.map_cons, List.map_nil] at h3
  exact .cons h3 .nil

theorem link_rat (n : Int) (d : Int) : LinkArgs V x (.rat n d) := link_two (s := "System`Rational") (by decide) (by rw [Meaning.argVals]) (fun z => by rw [Meaning.argVals])

theorem link_args_n : ∀ (n : Nat) (e : Ex), sizeOf e < n → noDiff e = true → LinkArgs V x e := by
  intro n
  induction n with
  | zero => intro e h; exact absurd h (by omega)
  | succ n ih =>
    intro e hn hd
    match e, hn, hd with
    | .int n, _, _ => exact link_atom (by simp [Meaning.argVals]) (by simp [Meaning.argVals])
    | .flt n, _, _ => exact link_atom (by simp [Meaning.argVals]) (by simp [Meaning.argVals])
    | .sym n, _, _ => exact link_atom (by simp [Meaning.argVals]) (by simp [Meaning.argVals])
    | .str n, _, _ => exact link_atom (by simp [Meaning.argVals]) (by simp [Meaning.argVals])
    | .rat n d, _, _ =>
      exact link_rat n d
    | .cplx re im, hn, h =>
      have hr : noDiff re = true := by
        simp only [noDiff, List.all_eq_true] at *
        exact fun b hb => h b (by simp [pieces, hb])
      have hi : noDiff im = true := by
        simp only [noDiff, List.all_eq_true] at *
        exact fun b hb => h b (by simp [pieces, hb])
      obtain ⟨f1, h1, h2⟩ := ih re (by simp only [Ex.cplx.sizeOf_spec] at hn; omega) hr
      obtain ⟨f2, h3, h4⟩ := ih im (by simp only [Ex.cplx.sizeOf_spec] at hn; omega) hi
      refine ⟨[fun z => (V.put x z).meaning.op "System`Complex" ((f1 ++ f2).map (· z))], fun z => ?_, ?_⟩
      · rw [Meaning.argVals, h1, h3, ← List.map_append]; rfl
      · rw [Meaning.argVals]
        exact .cons (link_op (by decide) (List.rel_append h2 h4)) .nil
    | .expr [], _, _ => exact link_atom (by simp [Meaning.argVals]) (by simp [Meaning.argVals])
    | .expr (h :: args), hn, hd =>
      have hl : ∀ a ∈ args, LinkArgs V x a := fun a ha => ih a (by
        have := List.sizeOf_lt_of_mem ha
        simp only [Ex.expr.sizeOf_spec, List.cons.sizeOf_spec] at hn; omega) (noDiff_part hd (by simp [ha]))
      by_cases hsym : ∃ s, h = .sym s
      · obtain ⟨s, rfl⟩ := hsym
        obtain ⟨fs, h1, h2⟩ := link_list hl
        by_cases hs : s = "System`Sequence"
        · subst hs
          refine ⟨fs, fun z => ?_, ?_⟩
          · exact Meaning.argVals_seq.trans (h1 z)
          · exact (Meaning.argVals_seq (M := funMeaning V x) (as := args)) ▸ h2
        · refine ⟨[fun z => (V.put x z).meaning.op s (fs.map (· z))], fun z => ?_, ?_⟩
          · rw [Meaning.argVals_app hs, h1]; rfl
          · rw [Meaning.argVals_app hs]
            have hne : s ≠ "System`D" := by
              rintro rfl
              simp only [noDiff, List.all_eq_true] at hd
              have := hd _ (pieces_self _)
              simp [hasHead] at this
            exact .cons (link_op hne h2) .nil
      · have : ∀ {A : Type} (M : Meaning A), M.argVals (.expr (h :: args)) = [M.atom (.expr (h :: args))] := by
          intro A M
          rw [Meaning.argVals]
          · intro s as he
            cases he
            exact hsym ⟨s, rfl⟩
          · intro n d he; cases he
          · intro a b he; cases he
        exact link_atom (this _) (fun z => this _)

/-- Without derivatives, the function has the values of the expression at most points. -/
theorem link_args (e : Ex) (h : noDiff e = true) : LinkArgs V x e := link_args_n _ e (Nat.lt_succ_self _) h

theorem link_val {e : Ex} (h : noDiff e = true) (hq : hasHead "System`Sequence" e = false) :
    Link ((funMeaning V x).val e) (fun z => (V.put x z).meaning.val e) := by
  obtain ⟨fs, h1, h2⟩ := link_args (V := V) (x := x) e h
  rw [Meaning.argVals_one _ hq] at h2
  cases h2 with
  | @cons _ f _ _ k1 k2 =>
    cases k2
    have : f = fun z => (V.put x z).meaning.val e := by
      funext z
      have := h1 z
      rw [Meaning.argVals_one _ hq] at this
      simpa using this.symm
    rw [← this]
    exact k1

/-- What keeps the value for all values of the variable keeps the function. -/
theorem related_fun {e e' : Ex} (h : noDiff e = true) (h' : noDiff e' = true) (hr : ∀ z, Related (V.put x z).meaning Refines e e') :
    Related (funMeaning V x) Agrees e e' := by
  obtain ⟨fs, h1, h2⟩ := link_args (V := V) (x := x) e h
  obtain ⟨gs, h3, h4⟩ := link_args (V := V) (x := x) e' h'
  have hr' : ∀ z, List.Forall₂ Refines (fs.map (· z)) (gs.map (· z)) := fun z => by
    have := hr z
    unfold Related at this
    rwa [h1, h3] at this
  unfold Related
  clear hr h1 h3
  generalize (funMeaning V x).argVals e = xs at h2 ⊢
  generalize (funMeaning V x).argVals e' = ys at h4 ⊢
  induction h2 generalizing gs ys with
  | nil =>
    cases h4 with
    | nil => exact .nil
    | cons => have := hr' 0; simp at this
  | cons k1 _ ih =>
    cases h4 with
    | nil => have := hr' 0; simp at this
    | cons k3 k4 =>
      refine .cons (k1.agrees k3 (Eventually.of_forall fun z => ?_)) (ih (gs := _) (ys := _) (h4 := k4) (hr' := fun z => ?_))
      · have := hr' z
        simp only [List.map_cons, List.forall₂_cons] at this
        exact this.1
      · have := hr' z
        simp only [List.map_cons, List.forall₂_cons] at this
        exact this.2

/-! ### Values are analytic at most points -/

theorem gen_getD {f : ℂ → Option ℂ} {g : ℂ → ℂ} (hg : Gen g) (h : ∀ᶠ z in mostly, f z = some (g z)) : Gen (fun z => (f z).getD 0) := by
  refine hg.congr ?_
  filter_upwards [h] with z hz
  rw [hz]; rfl

theorem gen_sum : ∀ {Fs : List (ℂ → ℂ)}, (∀ F ∈ Fs, Gen F) → Gen (fun z => (Fs.map (· z)).sum)
  | [], _ => gen_const 0
  | F :: Fs, h => (h F (by simp)).add (gen_sum fun G hG => h G (by simp [hG]))

theorem gen_prod : ∀ {Fs : List (ℂ → ℂ)}, (∀ F ∈ Fs, Gen F) → Gen (fun z => (Fs.map (· z)).prod)
  | [], _ => gen_const 1
  | F :: Fs, h => (h F (by simp)).mul (gen_prod fun G hG => h G (by simp [hG]))

theorem gen_powValue {F G : ℂ → ℂ} (hF : Gen F) (hG : Gen G) : Gen (fun z => (powValue (F z) (G z)).getD 0) := by
  refine (hF.pow hG).congr (Eventually.of_forall fun z => ?_)
  simp only [powValue]
  split
  · split <;> rfl
  · rfl

theorem gen_power : ∀ {Fs : List (ℂ → ℂ)}, (∀ F ∈ Fs, Gen F) → (∀ᶠ z in mostly, (arithValue V "System`Power" (Fs.map (· z))).isSome = true) →
    Gen (fun z => (arithValue V "System`Power" (Fs.map (· z))).getD 0)
  | [], _, _ => by
    refine (gen_const 1).congr (Eventually.of_forall fun z => ?_)
    simp [arith_power]
  | F :: Fs, h, hd => by
    have step : ∀ z, arithValue V "System`Power" ((F :: Fs).map (· z)) = (arithValue V "System`Power" (Fs.map (· z))).bind (powValue (F z)) := by
      intro z; rw [arith_power, arith_power]; rfl
    have hd' : ∀ᶠ z in mostly, (arithValue V "System`Power" (Fs.map (· z))).isSome = true := by
      filter_upwards [hd] with z hz
      rw [step] at hz
      cases h : arithValue V "System`Power" (Fs.map (· z)) with
      | none => rw [h] at hz; cases hz
      | some v => rfl
    have ih := gen_power (fun G hG => h G (by simp [hG])) hd'
    refine (gen_powValue (h F (by simp)) ih).congr ?_
    filter_upwards [hd'] with z hz
    obtain ⟨v, hv⟩ := Option.isSome_iff_exists.1 hz
    rw [step, hv]; rfl

theorem gen_arctan : Gen Complex.arctan := by
  have h1 : Gen (fun z : ℂ => (1 + z * Complex.I) / (1 - z * Complex.I)) := by
    refine Gen.div ((gen_const 1).add (gen_id.mul (gen_const _))) ?_
    have := (gen_const 1).add ((gen_const (-1)).mul (gen_id.mul (gen_const Complex.I)))
    simpa [sub_eq_add_neg] using this
  have := (gen_const (-Complex.I / 2)).mul (gen_log.comp h1)
  exact this.congr (Eventually.of_forall fun z => rfl)

/-- The elementary functions of one argument. -/
theorem gen_fn (hV : V.Standard) {s : String} (hs : s ∈ ["System`Log", "System`Sqrt", "System`Sin", "System`Cos", "System`Tan", "System`Cot", "System`Sec", "System`Csc",
    "System`Sinh", "System`Cosh", "System`Coth", "System`Csch", "System`ArcTan"]) : Gen (fun z => (V.fn s [z]).getD 0) := by
  have hc : ∀ᶠ z in mostly, Complex.cos z ≠ 0 := mostly_ne (fun z => Complex.differentiable_cos.analyticAt z) (z₀ := 0) (by simp)
  have hsn : ∀ᶠ z in mostly, Complex.sin z ≠ 0 := mostly_ne (fun z => Complex.differentiable_sin.analyticAt z) (z₀ := (Real.pi / 2 : ℂ)) (by simp)
  have hsh : ∀ᶠ z in mostly, Complex.sinh z ≠ 0 := mostly_ne (fun z => Complex.differentiable_sinh.analyticAt z) (z₀ := 1) (by
    intro h0
    have h1 : ((Real.sinh 1 : ℝ) : ℂ) = 0 := by rw [Complex.ofReal_sinh, Complex.ofReal_one]; exact h0
    have h2 : Real.sinh 1 = 0 := by exact_mod_cast h1
    exact absurd (Real.sinh_eq_zero.1 h2) one_ne_zero)
  simp only [List.mem_cons, List.not_mem_nil, or_false] at hs
  rcases hs with rfl | rfl | rfl | rfl | rfl | rfl | rfl | rfl | rfl | rfl | rfl | rfl | rfl
  · refine gen_getD gen_log ?_
    filter_upwards [mostly_nonzero] with z hz
    rw [hV.log, if_neg hz]
  · have := gen_powValue gen_id (gen_const (1 / 2))
    exact this.congr (Eventually.of_forall fun z => by simp only [hV.sqrt])
  · exact gen_getD gen_sin (Eventually.of_forall fun z => hV.sin z)
  · exact gen_getD gen_cos (Eventually.of_forall fun z => hV.cos z)
  · refine gen_getD (g := Complex.tan) ((gen_sin.div gen_cos).congr (Eventually.of_forall fun z => (Complex.tan_eq_sin_div_cos z).symm)) ?_
    filter_upwards [hc] with z hz
    rw [hV.tan, if_neg hz]
  · refine gen_getD (gen_cos.div gen_sin) ?_
    filter_upwards [hsn] with z hz
    rw [hV.cot, if_neg hz]
  · refine gen_getD ((gen_const 1).div gen_cos) ?_
    filter_upwards [hc] with z hz
    rw [hV.sec, if_neg hz]
  · refine gen_getD ((gen_const 1).div gen_sin) ?_
    filter_upwards [hsn] with z hz
    rw [hV.csc, if_neg hz]
  · exact gen_getD (gen_of_diff Complex.differentiable_sinh) (Eventually.of_forall fun z => hV.sinh z)
  · exact gen_getD (gen_of_diff Complex.differentiable_cosh) (Eventually.of_forall fun z => hV.cosh z)
  · refine gen_getD ((gen_of_diff Complex.differentiable_cosh).div (gen_of_diff Complex.differentiable_sinh)) ?_
    filter_upwards [hsh] with z hz
    rw [hV.coth, if_neg hz]
  · refine gen_getD ((gen_const 1).div (gen_of_diff Complex.differentiable_sinh)) ?_
    filter_upwards [hsh] with z hz
    rw [hV.csch, if_neg hz]
  · refine gen_getD gen_arctan ?_
    have h1 : ∀ᶠ z : ℂ in mostly, z - Complex.I ≠ 0 := mostly_ne (fun z => (analyticAt_id.sub analyticAt_const)) (z₀ := 0) (by simp)
    have h2 : ∀ᶠ z : ℂ in mostly, z + Complex.I ≠ 0 := mostly_ne (fun z => (analyticAt_id.add analyticAt_const)) (z₀ := 0) (by simp)
    filter_upwards [h1, h2] with z k1 k2
    rw [hV.arctan, if_neg]
    rintro (rfl | rfl)
    · exact k1 (by simp)
    · exact k2 (by simp)

theorem gen_op (hV : V.Elementary) {s : String} (hs : s ∈ stdHeads) (hq : s ≠ "System`Sequence") {Fs : List (ℂ → ℂ)} (hF : ∀ F ∈ Fs, Gen F) {F : ℂ → ℂ}
    (h : funOp V s Fs = some F) : Gen F := by
  have hne : s ≠ "System`D" := by rintro rfl; exact absurd hs (by decide)
  rw [funOp, if_neg hne] at h
  unfold lift at h
  split at h
  · rename_i hd
    cases h
    simp only [stdHeads, List.mem_cons, List.not_mem_nil, or_false] at hs
    have two : ∀ {z : ℂ}, ∀ {Fs : List (ℂ → ℂ)}, (∃ a b, Fs.map (· z) = [a, b]) → ∃ A B, Fs = [A, B] := by
      rintro z Fs ⟨a, b, h⟩
      rcases Fs with _ | ⟨A, _ | ⟨B, _ | ⟨C, Fs⟩⟩⟩
      · simp at h
      · simp at h
      · exact ⟨A, B, rfl⟩
      · simp at h
    have other : ∀ s, (∀ l, arithValue V s l = V.fn s l) → s ∈ ["System`Log", "System`Sqrt", "System`Sin", "System`Cos", "System`Tan", "System`Cot", "System`Sec", "System`Csc",
        "System`Sinh", "System`Cosh", "System`Coth", "System`Csch", "System`ArcTan"] → (∀ᶠ z in mostly, (arithValue V s (Fs.map (· z))).isSome = true) →
        Gen (fun z => (arithValue V s (Fs.map (· z))).getD 0) := by
      intro s hav hm hd
      obtain ⟨z, hz⟩ := hd.exists
      rw [hav] at hz
      have hlen : (Fs.map (· z)).length = 1 := by
        by_contra hn
        rw [hV.arity s hm _ hn] at hz
        cases hz
      rw [List.length_map] at hlen
      obtain ⟨G, rfl⟩ := List.length_eq_one_iff.1 hlen
      have := (gen_fn hV.toStandard hm).comp (hF G (by simp))
      refine this.congr (Eventually.of_forall fun z => ?_)
      simp only [hav]
      rfl
    rcases hs with rfl | rfl | rfl | rfl | rfl | rfl | hs
    · exact (gen_sum hF).congr (Eventually.of_forall fun z => by simp only [arith_plus]; rfl)
    · exact (gen_prod hF).congr (Eventually.of_forall fun z => by simp only [arith_times]; rfl)
    · exact gen_power hF hd
    · obtain ⟨z, hz⟩ := hd.exists
      obtain ⟨v, hv⟩ := Option.isSome_iff_exists.1 hz
      obtain ⟨a, b, hab, _⟩ := arith_rational_iff V hv
      obtain ⟨A, B, rfl⟩ := two ⟨a, b, hab⟩
      refine ((hF A (by simp)).div (hF B (by simp))).congr (Eventually.of_forall fun z => ?_)
      simp only [List.map_cons, List.map_nil, arith_rational]
      split
      · rename_i h0; rw [h0]; simp
      · rfl
    · obtain ⟨z, hz⟩ := hd.exists
      have : ∃ a b, Fs.map (· z) = [a, b] := by
        replace hz : (arithValue V "System`Complex" (Fs.map (· z))).isSome = true := hz
        generalize Fs.map (· z) = l at hz ⊢
        rcases l with _ | ⟨A, _ | ⟨B, _ | ⟨C, l⟩⟩⟩
        · simp [arithValue] at hz
        · simp [arithValue] at hz
        · exact ⟨A, B, rfl⟩
        · simp [arithValue] at hz
      obtain ⟨A, B, rfl⟩ := two this
      refine ((hF A (by simp)).add ((gen_const Complex.I).mul (hF B (by simp)))).congr (Eventually.of_forall fun z => ?_)
      simp only [List.map_cons, List.map_nil, arith_complex]
      rfl
    · exact absurd rfl hq
    · refine other s ?_ (by simpa using hs) hd
      intro l
      unfold arithValue
      rcases hs with rfl | rfl | rfl | rfl | rfl | rfl | rfl | rfl | rfl | rfl | rfl | rfl | rfl <;> simp
  · cases h

theorem gen_atom {e : Ex} {F : ℂ → ℂ} (h : (funMeaning V x).atom e = some F) : Gen F := by
  have hl : (fun z => atomValue (V.put x z) e) = (fun z => some z) ∨ ∃ o, (fun z => atomValue (V.put x z) e) = fun _ => o := by
    cases e with
    | sym s =>
      simp only [atomValue, Interp.put]
      by_cases h1 : s ∈ noNumber
      · exact .inr ⟨none, by funext z; rw [if_pos h1]⟩
      · by_cases h2 : s = x
        · exact .inl (by funext z; rw [if_neg h1, if_pos h2])
        · exact .inr ⟨_, by funext z; rw [if_neg h1, if_neg h2]⟩
    | _ => exact .inr ⟨_, rfl⟩
  simp only [funMeaning] at h
  rcases hl with hl | ⟨o, hl⟩
  · rw [hl] at h
    rw [lift_eq (F := fun z => z) (fun _ => rfl)] at h
    cases h
    exact gen_id
  · rw [hl] at h
    unfold lift at h
    split at h
    · cases h; exact gen_const _
    · cases h

/-- The values of expressions are analytic at most points. -/
theorem gen_args (hV : V.Elementary) : ∀ {e : Ex}, Frag Std e → ∀ a ∈ (funMeaning V x).argVals e, ∀ F, a = some F → Gen F
  | _, .sym s, a, ha, F, hF => by simp [Meaning.argVals] at ha; subst ha; exact gen_atom hF
  | _, .str s, a, ha, F, hF => by simp [Meaning.argVals] at ha; subst ha; exact gen_atom hF
  | _, .int n, a, ha, F, hF => by simp [Meaning.argVals] at ha; subst ha; exact gen_atom hF
  | _, .rat (n := n) (d := d) hd, a, ha, F, hF => by
    simp only [Meaning.argVals, List.mem_singleton] at ha
    subst ha
    simp only [funMeaning] at hF
    obtain ⟨Fs, h1, h2⟩ := Option.bind_eq_some_iff.1 hF
    refine gen_op hV (by decide) (by decide) (fun G hG => ?_) h2
    have h1' := allSome_map.1 h1
    have : some G ∈ Fs.map some := List.mem_map_of_mem hG
    rw [← h1'] at this
    simp only [List.mem_cons, List.not_mem_nil, or_false] at this
    rcases this with h | h
    · exact gen_atom (V := V) (x := x) h.symm
    · exact gen_atom (V := V) (x := x) h.symm
  | _, .cplx (re := re) (im := im) g1 g2 _, a, ha, F, hF => by
    simp only [Meaning.argVals, List.mem_singleton] at ha
    subst ha
    have hop : ∀ xs, (funMeaning V x).op "System`Complex" xs = (allSome xs).bind (funOp V "System`Complex") := fun _ => rfl
    rw [hop] at hF
    obtain ⟨Fs, h1, h2⟩ := Option.bind_eq_some_iff.1 hF
    refine gen_op hV (by decide) (by decide) (fun G hG => ?_) h2
    have h1' := allSome_map.1 h1
    have : some G ∈ Fs.map some := List.mem_map_of_mem hG
    rw [← h1'] at this
    rcases List.mem_append.1 this with h | h
    · exact gen_args hV (frag_real g1) _ h _ rfl
    · exact gen_args hV (frag_real g2) _ h _ rfl
  | _, .app (s := s) (args := args) hs hf, a, ha, F, hF => by
    have hargs : ∀ b ∈ (funMeaning V x).vals args, ∀ G, b = some G → Gen G := by
      have key : ∀ l : List Ex, (∀ b ∈ l, ∀ c ∈ (funMeaning V x).argVals b, ∀ G, c = some G → Gen G) → ∀ b ∈ (funMeaning V x).vals l, ∀ G, b = some G → Gen G := by
        intro l
        induction l with
        | nil => intro _ b hb; simp [Meaning.vals] at hb
        | cons c l ih =>
          intro h b hb
          rw [Meaning.vals_cons, List.mem_append] at hb
          rcases hb with hb | hb
          · exact h c (by simp) b hb
          · exact ih (fun b hb => h b (by simp [hb])) b hb
      exact key args fun b hb => gen_args hV (hf b hb)
    by_cases hq : s = "System`Sequence"
    · subst hq
      exact hargs a ((Meaning.argVals_seq (M := funMeaning V x) (as := args)) ▸ ha) F hF
    · rw [Meaning.argVals_app hq, List.mem_singleton] at ha
      subst ha
      have hop : ∀ xs, (funMeaning V x).op s xs = (allSome xs).bind (funOp V s) := fun _ => rfl
      rw [hop] at hF
      obtain ⟨Fs, h1, h2⟩ := Option.bind_eq_some_iff.1 hF
      refine gen_op hV hs hq (fun G hG => ?_) h2
      have h1' := allSome_map.1 h1
      have : some G ∈ Fs.map some := List.mem_map_of_mem hG
      rw [← h1'] at this
      exact hargs _ this G rfl

theorem gen_val (hV : V.Elementary) {e : Ex} (he : Frag Std e) (hq : hasHead "System`Sequence" e = false) {F : ℂ → ℂ} (h : (funMeaning V x).val e = some F) : Gen F :=
  gen_args (x := x) hV he _ (by rw [Meaning.argVals_one _ hq]; simp) F h

end
end Expreduce
