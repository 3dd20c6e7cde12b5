import Verif.Proofs.DiffFun

/-! The rules of `D` give derivatives. -/

namespace Expreduce
open Ex Shipped Filter Topology

/-- The functions of the expressions considered, and `D`. -/
def DStd (s : String) : Prop := s ∈ stdHeads ∨ s = "System`D"

/-- What is assumed. -/
structure DiffSetup (V : Interp) (A : AlgParams) (T : Table) (x : String) : Prop where
  elem : V.Elementary
  var : isVariable x
  table : DiffTable V x T
  truth : ∀ z, TruthOk (V.put x z) A.truth
  free : FreeOk A.truth x
  locals : LocalsOk A.locals

theorem put_standard {V : Interp} {x : String} (hV : V.Standard) (hx : isVariable x) (z : ℂ) : (V.put x z).Standard := by
  have hn : ∀ s, s ∈ ["System`E", "System`Pi", "System`I", "System`Infinity", "System`ComplexInfinity", "System`Indeterminate"] → s ≠ x := fun s hs h => hx (h ▸ hs)
  refine ⟨?_, ?_, ?_, hV.log, hV.sqrt, hV.sin, hV.cos, hV.tan, hV.cot, hV.sec, hV.csc, hV.sinh, hV.cosh, hV.coth, hV.csch, hV.arctan⟩
  · simp only [Interp.put]; rw [if_neg (hn _ (by decide)), hV.e]
  · simp only [Interp.put]; rw [if_neg (hn _ (by decide)), hV.pi]
  · simp only [Interp.put]; rw [if_neg (hn _ (by decide)), hV.i]

theorem tabEnv_without (A : AlgParams) (T : Table) : tabEnv A (withoutDiff T) = tabEnv A T := by
  have h1 : ∀ s, (attrsOf { defs := withoutDiff T } s) = attrsOf { defs := T } s := by
    intro s
    simp only [attrsOf, withoutDiff]
    split
    · cases T s <;> rfl
    · rfl
  have h2 : ∀ s, (withoutDiff T s).bind DefM.dflt = (T s).bind DefM.dflt := by
    intro s
    simp only [withoutDiff]
    split
    · cases T s <;> rfl
    · rfl
  simp only [tabEnv, envOf, h1, h2]

theorem frag_std {e : Ex} (h : Frag DStd e) (hn : noDiff e = true) : Frag Std e := by
  induction h with
  | sym s => exact .sym s
  | str s => exact .str s
  | int n => exact .int n
  | rat h => exact .rat h
  | cplx h1 h2 h3 => exact .cplx h1 h2 h3
  | @app s args hs _ ih =>
    refine .app ?_ fun a ha => ih a ha (noDiff_part hn (by simp [ha]))
    rcases hs with hs | rfl
    · exact hs
    · simp only [noDiff, List.all_eq_true] at hn
      have := hn _ (pieces_self _)
      simp [hasHead] at this

theorem frag_dstd {e : Ex} (h : Frag Std e) : Frag DStd e := by
  induction h with
  | sym s => exact .sym s
  | str s => exact .str s
  | int n => exact .int n
  | rat h => exact .rat h
  | cplx h1 h2 h3 => exact .cplx h1 h2 h3
  | app hs _ ih => exact .app (.inl hs) ih

theorem std_noDiff {e : Ex} (h : Frag Std e) : noDiff e = true := by
  simp only [noDiff, List.all_eq_true]
  intro a ha
  have := pieces_frag (by decide : Std "System`Rational") (by decide : Std "System`Complex") h a ha
  rw [frag_noHead (by decide) this]
  rfl

section
variable {V : Interp} {A : AlgParams} {T : Table} {x : String} (hS : DiffSetup V A T x)

include hS in
theorem env_d : (tabEnv A T).flat "System`D" = false ∧ (tabEnv A T).orderless "System`D" = false ∧ (tabEnv A T).oneIdentity "System`D" = false ∧
    (tabEnv A T).dflt "System`D" = none := by
  simp only [tabEnv, envOf, attrsOf]
  cases hd : T "System`D" with
  | none => exact ⟨rfl, rfl, rfl, rfl⟩
  | some d => exact hS.table.plain d hd

/-- A value for most values of the variable. -/
theorem fun_of_val (hV : V.Elementary) {w : Ex} (hw : Frag Std w) (hq : hasHead "System`Sequence" w = false) (h : ∀ᶠ z in mostly, ((V.put x z).meaning.val w).isSome = true) :
    ∃ F, (funMeaning V x).val w = some F ∧ Gen F ∧ ∀ᶠ z in mostly, (V.put x z).meaning.val w = some (F z) := by
  have hl := link_val (V := V) (x := x) (std_noDiff hw) hq
  obtain ⟨F, hF⟩ := hl.2 h
  exact ⟨F, hF, gen_val hV hw hq hF, hl.1 F hF⟩

/-- What a match of the left side of a rule of `D` gives. -/
structure DMatch (V : Interp) (A : AlgParams) (T : Table) (x : String) (a p : Ex) (ρ : String → Option Ex) : Prop where
  atX : ρ "Private`x" = some (.sym x)
  frag : Frag Std a
  noSeq : hasHead "System`Sequence" a = false
  elem : Matches (tabEnv A T) ρ (shape none false "System`D" p).elem a
  name : ∀ y, (shape none false "System`D" p).name = some y → ∃ v, ρ y = some v ∧ isSameQ v ((shape none false "System`D" p).value false [a]) = true
  distinct : ∃ W, Distinct (tabEnv A T) (· ∈ "System`D" :: lhsHeads) (· ∈ subexprs p) (· ∈ pieces a) W ∧ ∀ y v, ρ y = some v → W v
  nonzero : ∀ b c, a = .expr [S "Power", b, c] → NotZero V x b

include hS in
theorem dmatch_of {a p : Ex} {ρ : String → Option Ex} (hf : Frag Std a) (hn : ∀ b c, a = .expr [S "Power", b, c] → NotZero V x b)
    (hopt : isOptional p = false) (h1 : (shape none false "System`D" p).lo = 1 ∧ (shape none false "System`D" p).hi = 1)
    (hc : ClashFree (tabEnv A T) ("System`D" :: lhsHeads) (held (call "D" [p, any "x"])) (.expr [S "D", a, .sym x]) ρ)
    (hm : Matches (tabEnv A T) ρ (held (call "D" [p, any "x"])) (.expr [S "D", a, .sym x])) : DMatch V A T x a p ρ := by
  obtain ⟨W, hD, hW⟩ := hc
  obtain ⟨e1, e2, e3, e4⟩ := env_d hS
  have hm' : Matches (tabEnv A T) ρ (.expr [.sym "System`D", p, any "x"]) (.expr [S "D", a, .sym x]) := matches_hold_inv hm
  have hsub : ∀ q ∈ subexprs (.expr [.sym "System`D", p, any "x"]), q ∈ subexprs (held (call "D" [p, any "x"])) := by
    intro q hq
    exact subexprs_arg (ps := [.expr [.sym "System`D", p, any "x"]]) (List.mem_singleton.2 rfl) hq
  obtain ⟨c1, c2, k1, k2, k3, k4, k5⟩ := two_inv hD (by decide) e1 e2 hsub (pieces_self _) ⟨hopt, rfl⟩ (by rw [e4]; exact h1) (by rw [e4, shape_any]; exact ⟨rfl, rfl⟩) hm'
  rw [e4, e3] at k4 k5
  rw [e4] at k2 k3
  simp only [partsOf, S, Option.some.injEq, List.cons.injEq, and_true] at k1
  obtain ⟨_, rfl, rfl⟩ := k1
  have hap : a ∈ pieces (.expr [S "D", a, .sym x]) := pieces_arg (by simp) (pieces_self a)
  have hxp : (Ex.sym x) ∈ pieces (.expr [S "D", a, .sym x]) := pieces_arg (by simp) (pieces_self _)
  refine ⟨?_, hf, hD.noSeq _ hap, k2, k4, ⟨W, hD.sub (fun _ h => h) ?_ ?_ (pieces_part a) (pieces_opened a), hW⟩, hn⟩
  · obtain ⟨v, hv, hs⟩ := k5 "Private`x" (by rw [shape_any]; rfl)
    rw [any_value] at hs
    rw [hv, hD.inj _ _ (hW _ _ hv) (hD.whole _ hxp) hs]
  · intro q hq
    exact hsub q (subexprs_arg (by simp) hq)
  · intro b hb
    exact pieces_arg (by simp) hb

include hS in
/-- The first argument has the value of the filled-in pattern, for all values of the variable. -/
theorem DMatch.fill {a p : Ex} {ρ : String → Option Ex} (h : DMatch V A T x a p ρ) (hp : FPat (tabEnv A T) (· ∈ lhsHeads) p) (hn : argName p = none) (z : ℂ) :
    (V.put x z).meaning.argVals (fill ρ p) = (V.put x z).meaning.argVals a ∧
      ∀ t ∈ namedArgs p, Taken (tabEnv A (withoutDiff T)) (Frag Std) ρ t.1 t.2.1 t.2.2 := by
  obtain ⟨W, hD, hW⟩ := h.distinct
  have hD' : Distinct (tabEnv A T) (· ∈ lhsHeads) (· ∈ subexprs p) (· ∈ pieces a) W :=
    hD.sub (fun _ h => List.mem_cons_of_mem _ h) (fun _ h => h) (fun _ h => h) (pieces_part a) (pieces_opened a)
  have hm := h.elem
  rw [shape_fpat hp hn] at hm
  have hlaw : ∀ s, s ∈ lhsHeads → (V.put x z).meaning.Lawful (tabEnv A T) s := fun s hs => by
    rw [← tabEnv_without]
    exact std_lawful (hS.table.std z) hs
  obtain ⟨h1, h2⟩ := fill_matches hlaw hD' hW (sizeOf p + 1) p a (by omega) hp (fun q hq => hq) (pieces_self a) hm
  refine ⟨h1, fun t ht => ?_⟩
  rw [tabEnv_without]
  exact (h2 t ht).mono (pieces_frag (by decide : Std "System`Rational") (by decide : Std "System`Complex") h.frag)

include hS in
/-- What is to be shown for a rule. -/
theorem diff_goal {a e : Ex} (ha : hasHead "System`Sequence" a = false) (he : hasHead "System`Sequence" e = false)
    (h : ∀ F, (funMeaning V x).val a = some F → HasFun ((funMeaning V x).val e) (deriv F)) :
    Related (funMeaning V x) Agrees (.expr [S "D", a, .sym x]) e := by
  unfold Related
  change List.Forall₂ Agrees ((funMeaning V x).argVals (.expr [.sym "System`D", a, .sym x])) _
  rw [Meaning.argVals_app (by decide), Meaning.argVals_one _ he]
  refine .cons (agrees_of fun K hK => ?_) .nil
  rw [Meaning.vals_cons, Meaning.vals_cons, Meaning.vals_nil, Meaning.argVals_one _ ha, Meaning.argVals_one _ (by rfl), List.append_nil,
    List.singleton_append, val_variable hS.var] at hK
  obtain ⟨F, hF, rfl⟩ := diff_op_some hK
  exact h F hF

include hS in
theorem val_diff {w : Ex} (hw : hasHead "System`Sequence" w = false) {F : ℂ → ℂ} (h : HasFun ((funMeaning V x).val w) F) :
    HasFun ((funMeaning V x).val (.expr [.sym "System`D", w, .sym x])) (deriv F) := by
  rw [Meaning.val_app, Meaning.vals_cons, Meaning.vals_cons, Meaning.vals_nil, Meaning.argVals_one _ hw, Meaning.argVals_one _ (by rfl), List.append_nil,
    List.singleton_append, val_variable hS.var]
  exact hasFun_diff h

/-- The result of a rule of `D`, and its value. -/
def DSound (V : Interp) (A : AlgParams) (T : Table) (x : String) (a : Ex) (r : Ex × Ex) : Prop :=
  ∀ ρ res, ClashFree (tabEnv A T) ("System`D" :: lhsHeads) r.1 (.expr [S "D", a, .sym x]) ρ → Matches (tabEnv A T) ρ r.1 (.expr [S "D", a, .sym x]) →
    OnlyNames ρ r.1 → Yields (tabEnv A T) A.locals (subst ρ r.2) res → Frag DStd res ∧ Related (funMeaning V x) Agrees (.expr [S "D", a, .sym x]) res

theorem frag_dcall {s : String} {args : List Ex} : Frag DStd (.expr (.sym s :: args)) ↔ DStd s ∧ ∀ a ∈ args, Frag DStd a :=
  ⟨fun h => frag_args h, fun h => .app h.1 h.2⟩

theorem yields_dfrag (hL : LocalsOk A.locals) {e res : Ex} (he : Frag DStd e) (h : Yields (tabEnv A T) A.locals e res) : res = e :=
  h.self (frag_noHead (by simp [DStd]; decide) he) (hL e (frag_noHead (by simp [DStd]; decide) he) (frag_noHead (by simp [DStd]; decide) he))

/-- Names that are no variables. -/
def diffConsts : List String := "System`D" :: "System`FreeQ" :: "System`UnsameQ" :: constNames

/-- A rule without condition. -/
theorem dsound_plain (hL : LocalsOk A.locals) {a lhs rhs : Ex} (hb : diffConsts.all (fun s => !(patNames (held lhs)).contains s) = true)
    (h : ∀ ρ, ClashFree (tabEnv A T) ("System`D" :: lhsHeads) (held lhs) (.expr [S "D", a, .sym x]) ρ →
      Matches (tabEnv A T) ρ (held lhs) (.expr [S "D", a, .sym x]) → Unbound ρ → ρ "System`D" = none →
      Frag DStd (subst ρ rhs) ∧ Related (funMeaning V x) Agrees (.expr [S "D", a, .sym x]) (subst ρ rhs)) : DSound V A T x a (def_ lhs rhs) := by
  intro ρ res hc hm ho hy
  have hc' : constNames.all (fun s => !(patNames (held lhs)).contains s) = true := by
    rw [List.all_eq_true] at hb ⊢
    exact fun s hs => hb s (by simp [diffConsts, hs])
  have hd : ρ "System`D" = none := ho.none (by
    have := List.all_eq_true.1 hb "System`D" (by simp [diffConsts])
    simpa [def_] using this)
  obtain ⟨h1, h2⟩ := h ρ hc hm (unbound_of hc' ho) hd
  obtain rfl := yields_dfrag hL h1 hy
  exact ⟨h1, h2⟩

include hS in
/-- `D[x, x]` -/
theorem d_1 {a : Ex} (hf : Frag Std a) (hn : ∀ b c, a = .expr [S "Power", b, c] → NotZero V x b) : DSound V A T x a (diffRules[1]'(by decide)) := by
  refine dsound_plain hS.locals (by decide +kernel) fun ρ hc hm hu hd => ?_
  have hM := dmatch_of hS (p := any "x") hf hn rfl (by rw [shape_any]; exact ⟨rfl, rfl⟩) hc hm
  obtain ⟨W, hD, hW⟩ := hM.distinct
  obtain ⟨v, hv, hs⟩ := hM.name "Private`x" (by rw [shape_any]; rfl)
  rw [any_value] at hs
  have := hD.inj _ _ (hW _ _ hv) (hD.whole _ (pieces_self a)) hs
  rw [hM.atX] at hv
  cases hv
  subst this
  have : subst ρ (.int 1) = .int 1 := by simp [subst]
  rw [this]
  refine ⟨.int _, diff_goal hS rfl rfl fun F hF => ?_⟩
  rw [val_variable hS.var] at hF
  cases hF
  refine (hasFun_int 1).congr (Eventually.of_forall fun z => ?_)
  simp

include hS in
/-- `D[Indeterminate, x]` -/
theorem d_0 {a : Ex} (hf : Frag Std a) (hn : ∀ b c, a = .expr [S "Power", b, c] → NotZero V x b) : DSound V A T x a (diffRules[0]'(by decide)) := by
  refine dsound_plain hS.locals (by decide +kernel) fun ρ hc hm hu hd => ?_
  have hM := dmatch_of hS (p := S "Indeterminate") hf hn rfl ⟨rfl, rfl⟩ hc hm
  obtain ⟨W, hD, hW⟩ := hM.distinct
  have ha : a = .sym "System`Indeterminate" := matches_sym hD (pieces_self a) (by simp [subexprs, S]) hM.elem
  subst ha
  have : subst ρ (S "Indeterminate") = S "Indeterminate" := by
    have := hu.2.2.2.2.2.2.1
    simp [subst, S, this]
  rw [this]
  refine ⟨.sym _, diff_goal hS rfl rfl fun F hF => ?_⟩
  exfalso
  obtain ⟨z, hz⟩ := ((link_val (V := V) (x := x) (e := .sym "System`Indeterminate") rfl rfl).1 F hF).exists
  simp only [val_indeterminate] at hz
  cases hz

/-- Both arguments of a sum or product. -/
theorem two_vals {f : ℂ → Option ℂ} {g : ℂ → Option ℂ} {F : ℂ → ℂ} {op : ℂ → ℂ → ℂ} (h : ∀ᶠ z in mostly, ∃ u v, f z = some u ∧ g z = some v ∧ op u v = F z) :
    (∀ᶠ z in mostly, (f z).isSome = true) ∧ (∀ᶠ z in mostly, (g z).isSome = true) := by
  constructor
  · filter_upwards [h] with z hz
    obtain ⟨u, v, h1, h2, _⟩ := hz
    rw [h1]; rfl
  · filter_upwards [h] with z hz
    obtain ⟨u, v, h1, h2, _⟩ := hz
    rw [h2]; rfl

theorem val_two {M : Meaning (Option (ℂ → ℂ))} {s : String} {a b : Ex} (_ : s ≠ "System`Sequence") (ha : hasHead "System`Sequence" a = false)
    (hb : hasHead "System`Sequence" b = false) : M.val (.expr [.sym s, a, b]) = M.op s [M.val a, M.val b] := by
  rw [Meaning.val_app, Meaning.vals_cons, Meaning.vals_cons, Meaning.vals_nil, Meaning.argVals_one _ ha, Meaning.argVals_one _ hb, List.append_nil, List.singleton_append]

theorem val_three {M : Meaning (Option (ℂ → ℂ))} {s : String} {a b c : Ex} (_ : s ≠ "System`Sequence") (ha : hasHead "System`Sequence" a = false)
    (hb : hasHead "System`Sequence" b = false) (hc : hasHead "System`Sequence" c = false) : M.val (.expr [.sym s, a, b, c]) = M.op s [M.val a, M.val b, M.val c] := by
  rw [Meaning.val_app, Meaning.vals_cons, Meaning.vals_cons, Meaning.vals_cons, Meaning.vals_nil, Meaning.argVals_one _ ha, Meaning.argVals_one _ hb,
    Meaning.argVals_one _ hc, List.append_nil, List.singleton_append, List.singleton_append]

theorem val_single {M : Meaning (Option (ℂ → ℂ))} {s : String} {a : Ex} (_ : s ≠ "System`Sequence") (ha : hasHead "System`Sequence" a = false) :
    M.val (.expr [.sym s, a]) = M.op s [M.val a] := by
  rw [Meaning.val_app, Meaning.vals_cons, Meaning.vals_nil, Meaning.argVals_one _ ha, List.append_nil]

include hS in
/-- `D[a + b, x]` -/
theorem d_3 {a : Ex} (hf : Frag Std a) (hn : ∀ b c, a = .expr [S "Power", b, c] → NotZero V x b) : DSound V A T x a (diffRules[3]'(by decide)) := by
  refine dsound_plain hS.locals (by decide +kernel) fun ρ hc hm hu hd => ?_
  have hM := dmatch_of hS (p := add [any "a", any "b"]) hf hn rfl ⟨rfl, rfl⟩ hc hm
  have hfill := fun z => hM.fill hS (fpat_of (n := 9) (by decide +kernel)) (by decide +kernel) z
  have ht := (hfill 0).2
  obtain ⟨wa, ha, fa, na⟩ := taken_any (hS.table.std 0) (by decide) (by decide) (ht (false, "System`Plus", any "a") (by decide +kernel))
  obtain ⟨wb, hb, fb, nb⟩ := taken_any (hS.table.std 0) (by decide) (by decide) (ht (false, "System`Plus", any "b") (by decide +kernel))
  have hval := fun z => (hfill z).1
  have hxx := hM.atX
  have hq := hM.noSeq
  clear ht hfill hm hc hM
  simp only [String.reduceAppend, Unbound] at *
  have e1 : fill ρ (add [any "a", any "b"]) = .expr [.sym "System`Plus", wa, wb] := by rule_sides [ha, hb, hu]
  have e2 : subst ρ (add [diff (var "a"), diff (var "b")]) =
      .expr [.sym "System`Plus", .expr [.sym "System`D", wa, .sym x], .expr [.sym "System`D", wb, .sym x]] := by rule_sides [ha, hb, hu, hd, hxx, diff]
  rw [e1] at hval
  rw [e2]
  clear e1 e2 hu hd
  refine ⟨by simp [frag_dcall, DStd, stdHeads, Frag.sym, frag_dstd fa, frag_dstd fb], diff_goal hS hq (by simp [hasHead]) fun F hF => ?_⟩
  have hpt : ∀ᶠ z in mostly, ∃ u v, (V.put x z).meaning.val wa = some u ∧ (V.put x z).meaning.val wb = some v ∧ u + v = F z := by
    filter_upwards [(link_val (V := V) (x := x) (std_noDiff hf) hq).1 F hF] with z hz
    have hv := hval z
    rw [Meaning.argVals_app (by decide), Meaning.argVals_one _ hq, List.cons.injEq] at hv
    rw [← hv.1] at hz
    rule_hyp [na, nb] at hz
    obtain ⟨u, h1, v, ⟨_, h2, rfl⟩, h3⟩ := hz
    exact ⟨u, _, h1, h2, h3⟩
  obtain ⟨Fa, ka, ga, la⟩ := fun_of_val hS.elem fa na (two_vals hpt).1
  obtain ⟨Fb, kb, gb, lb⟩ := fun_of_val hS.elem fb nb (two_vals hpt).2
  have e : (fun z => Fa z + Fb z) =ᶠ[mostly] F := by
    filter_upwards [hpt, la, lb] with z k1 k2 k3
    obtain ⟨u, v, h1, h2, h3⟩ := k1
    rw [k2] at h1; rw [k3] at h2
    cases h1; cases h2; exact h3
  rw [val_two (by decide) (by simp [hasHead]) (by simp [hasHead])]
  exact (hasFun_plus (val_diff hS na ⟨Fa, ka, .rfl⟩) (val_diff hS nb ⟨Fb, kb, .rfl⟩)).congr ((deriv_add_mostly ga gb).symm.trans (deriv_congr e))

include hS in
/-- `D[a b, x]` -/
theorem d_4 {a : Ex} (hf : Frag Std a) (hn : ∀ b c, a = .expr [S "Power", b, c] → NotZero V x b) : DSound V A T x a (diffRules[4]'(by decide)) := by
  refine dsound_plain hS.locals (by decide +kernel) fun ρ hc hm hu hd => ?_
  have hM := dmatch_of hS (p := mul [any "a", any "b"]) hf hn rfl ⟨rfl, rfl⟩ hc hm
  have hfill := fun z => hM.fill hS (fpat_of (n := 9) (by decide +kernel)) (by decide +kernel) z
  have ht := (hfill 0).2
  obtain ⟨wa, ha, fa, na⟩ := taken_any (hS.table.std 0) (by decide) (by decide) (ht (false, "System`Times", any "a") (by decide +kernel))
  obtain ⟨wb, hb, fb, nb⟩ := taken_any (hS.table.std 0) (by decide) (by decide) (ht (false, "System`Times", any "b") (by decide +kernel))
  have hval := fun z => (hfill z).1
  have hxx := hM.atX
  have hq := hM.noSeq
  clear ht hfill hm hc hM
  simp only [String.reduceAppend, Unbound] at *
  have e1 : fill ρ (mul [any "a", any "b"]) = .expr [.sym "System`Times", wa, wb] := by rule_sides [ha, hb, hu]
  have e2 : subst ρ (add [mul [diff (var "a"), var "b"], mul [var "a", diff (var "b")]]) =
      .expr [.sym "System`Plus", .expr [.sym "System`Times", .expr [.sym "System`D", wa, .sym x], wb],
        .expr [.sym "System`Times", wa, .expr [.sym "System`D", wb, .sym x]]] := by rule_sides [ha, hb, hu, hd, hxx, diff]
  rw [e1] at hval
  rw [e2]
  clear e1 e2 hu hd
  refine ⟨by simp [frag_dcall, DStd, stdHeads, Frag.sym, frag_dstd fa, frag_dstd fb], diff_goal hS hq (by simp [hasHead]) fun F hF => ?_⟩
  have hpt : ∀ᶠ z in mostly, ∃ u v, (V.put x z).meaning.val wa = some u ∧ (V.put x z).meaning.val wb = some v ∧ u * v = F z := by
    filter_upwards [(link_val (V := V) (x := x) (std_noDiff hf) hq).1 F hF] with z hz
    have hv := hval z
    rw [Meaning.argVals_app (by decide), Meaning.argVals_one _ hq, List.cons.injEq] at hv
    rw [← hv.1] at hz
    rule_hyp [na, nb] at hz
    obtain ⟨u, h1, v, ⟨_, h2, rfl⟩, h3⟩ := hz
    exact ⟨u, _, h1, h2, h3⟩
  obtain ⟨Fa, ka, ga, la⟩ := fun_of_val hS.elem fa na (two_vals hpt).1
  obtain ⟨Fb, kb, gb, lb⟩ := fun_of_val hS.elem fb nb (two_vals hpt).2
  have e : (fun z => Fa z * Fb z) =ᶠ[mostly] F := by
    filter_upwards [hpt, la, lb] with z k1 k2 k3
    obtain ⟨u, v, h1, h2, h3⟩ := k1
    rw [k2] at h1; rw [k3] at h2
    cases h1; cases h2; exact h3
  rw [val_two (s := "System`Plus") (by decide) (by simp [hasHead]) (by simp [hasHead]), val_two (s := "System`Times") (by decide) (by simp [hasHead]) nb,
    val_two (s := "System`Times") (by decide) na (by simp [hasHead])]
  exact (hasFun_plus (hasFun_times (val_diff hS na ⟨Fa, ka, .rfl⟩) ⟨Fb, kb, .rfl⟩) (hasFun_times ⟨Fa, ka, .rfl⟩ (val_diff hS nb ⟨Fb, kb, .rfl⟩))).congr
    ((deriv_mul_mostly ga gb).symm.trans (deriv_congr e))

include hS in
/-- `D[a^b, x]` -/
theorem d_5 {a : Ex} (hf : Frag Std a) (hn : ∀ b c, a = .expr [S "Power", b, c] → NotZero V x b) : DSound V A T x a (diffRules[5]'(by decide)) := by
  refine dsound_plain hS.locals (by decide +kernel) fun ρ hc hm hu hd => ?_
  have hM := dmatch_of hS (p := pow (any "a") (any "b")) hf hn rfl ⟨rfl, rfl⟩ hc hm
  have hfill := fun z => hM.fill hS (fpat_of (n := 9) (by decide +kernel)) (by decide +kernel) z
  have ht := (hfill 0).2
  obtain ⟨wa, ha, fa, na⟩ := taken_any (hS.table.std 0) (by decide) (by decide) (ht (false, "System`Power", any "a") (by decide +kernel))
  obtain ⟨wb, hb, fb, nb⟩ := taken_any (hS.table.std 0) (by decide) (by decide) (ht (false, "System`Power", any "b") (by decide +kernel))
  have hbase : NotZero V x wa := by
    obtain ⟨W, hD, hW⟩ := hM.distinct
    obtain ⟨q1, q2, q3, q4⟩ := env_power (A := A) (hS.table.std 0)
    rw [tabEnv_without] at q1 q2 q3 q4
    have hel : Matches (tabEnv A T) ρ (.expr [.sym "System`Power", any "a", any "b"]) a := hM.elem
    obtain ⟨c1, c2, k1, _, _, k4, _⟩ := two_inv hD (by decide) q1 q2 (fun q hq => hq) (pieces_self a) ⟨rfl, rfl⟩ (by rw [shape_any]; exact ⟨rfl, rfl⟩)
      (by rw [shape_any]; exact ⟨rfl, rfl⟩) hel
    obtain ⟨v, hv, hs⟩ := k4 "Private`a" (by rw [shape_any]; rfl)
    rw [any_value] at hs
    have hvc := hD.inj _ _ (hW _ _ hv) (hD.whole _ (pieces_part a a _ (pieces_self a) k1 c1 (by simp))) hs
    have hav : some wa = some v := ha.symm.trans hv
    cases hav
    subst hvc
    refine hn wa c2 ?_
    cases a with
    | expr ps => simpa [partsOf, S] using k1
    | rat => simp [partsOf, S] at k1
    | cplx => simp [partsOf, S] at k1
    | _ => simp [partsOf] at k1
  have hval := fun z => (hfill z).1
  have hxx := hM.atX
  have hq := hM.noSeq
  clear ht hfill hm hc hM
  simp only [String.reduceAppend, Unbound] at *
  have e1 : fill ρ (pow (any "a") (any "b")) = .expr [.sym "System`Power", wa, wb] := by rule_sides [ha, hb, hu]
  have e2 : subst ρ (mul [pow (var "a") (var "b"), add [mul [diff (var "b"), call "Log" [var "a"]], mul [diff (var "a"), pow (var "a") (.int (-1)), var "b"]]]) =
      .expr [.sym "System`Times", .expr [.sym "System`Power", wa, wb], .expr [.sym "System`Plus",
        .expr [.sym "System`Times", .expr [.sym "System`D", wb, .sym x], .expr [.sym "System`Log", wa]],
        .expr [.sym "System`Times", .expr [.sym "System`D", wa, .sym x], .expr [.sym "System`Power", wa, .int (-1)], wb]]] := by
    rule_sides [ha, hb, hu, hd, hxx, diff]
  rw [e1] at hval
  rw [e2]
  clear e1 e2 hu hd
  refine ⟨by simp [frag_dcall, DStd, stdHeads, Frag.sym, Frag.int, frag_dstd fa, frag_dstd fb], diff_goal hS hq (by simp [hasHead]) fun F hF => ?_⟩
  have hpt : ∀ᶠ z in mostly, ∃ u v, (V.put x z).meaning.val wa = some u ∧ (V.put x z).meaning.val wb = some v ∧ powValue u v = some (F z) := by
    filter_upwards [(link_val (V := V) (x := x) (std_noDiff hf) hq).1 F hF] with z hz
    have hv := hval z
    rw [Meaning.argVals_app (by decide), Meaning.argVals_one _ hq, List.cons.injEq] at hv
    rw [← hv.1] at hz
    rule_hyp [na, nb] at hz
    obtain ⟨u, h1, v, h2, h3⟩ := hz
    exact ⟨u, v, h1, h2, h3⟩
  obtain ⟨Fa, ka, ga, la⟩ := fun_of_val hS.elem fa na (by filter_upwards [hpt] with z hz; obtain ⟨u, v, h1, _⟩ := hz; rw [h1]; rfl)
  obtain ⟨Fb, kb, gb, lb⟩ := fun_of_val hS.elem fb nb (by filter_upwards [hpt] with z hz; obtain ⟨u, v, _, h1, _⟩ := hz; rw [h1]; rfl)
  have h0 : ∀ᶠ z in mostly, Fa z ≠ 0 := by
    refine mostly_ne_of_gen ga fun O hO hne => ?_
    obtain ⟨W, hW, hWn, hWO, hWF⟩ := mostly_open la hO hne
    by_contra hall
    push Not at hall
    have := hbase W hW fun z hz => by
      unfold Interp.Denotes
      rw [Meaning.argVals_one _ na, hWF z hz, hall z (hWO hz)]
    rw [this] at hWn
    exact Set.not_nonempty_empty hWn
  have e : (fun z => Fa z ^ Fb z) =ᶠ[mostly] F := by
    filter_upwards [hpt, la, lb, h0] with z k1 k2 k3 k4
    obtain ⟨u, v, h1, h2, h3⟩ := k1
    rw [k2] at h1; rw [k3] at h2
    cases h1; cases h2
    rw [powValue_ne k4] at h3
    exact Option.some.inj h3
  rw [val_two (s := "System`Times") (by decide) (by simp [hasHead]) (by simp [hasHead]), val_two (s := "System`Power") (by decide) na nb,
    val_two (s := "System`Plus") (by decide) (by simp [hasHead]) (by simp [hasHead]),
    val_two (s := "System`Times") (by decide) (by simp [hasHead]) (by simp [hasHead]), val_single (by decide) na, val_three (by decide) (by simp [hasHead]) (by simp [hasHead]) nb,
    val_two (s := "System`Power") (by decide) na rfl]
  have Ha : HasFun ((funMeaning V x).val wa) Fa := ⟨Fa, ka, .rfl⟩
  have Hb : HasFun ((funMeaning V x).val wb) Fb := ⟨Fb, kb, .rfl⟩
  have H1 := hasFun_power (V := V) (x := x) (K := fun z => Fa z ^ Fb z) Ha Hb (by filter_upwards [h0] with z hz; exact powValue_ne hz _)
  have H2 := hasFun_power (V := V) (x := x) (K := fun z => (Fa z)⁻¹) Ha (hasFun_int (V := V) (x := x) (-1)) (by filter_upwards [h0] with z hz; simpa using powValue_neg_one_some hz)
  have H3 := hasFun_fn (V := V) (x := x) (s := "System`Log") (K := fun z => Complex.log (Fa z)) (by decide) (by decide) Ha
    (by filter_upwards [h0] with z hz; rw [hS.elem.log, if_neg hz])
  exact (hasFun_times H1 (hasFun_plus (hasFun_times (val_diff hS nb Hb) H3) (hasFun_times3 (val_diff hS na Ha) H2 Hb))).congr
    ((deriv_pow_mostly ga gb h0).symm.trans (deriv_congr e))

include hS in
/-- `D[Log[a], x]` -/
theorem d_6 {a : Ex} (hf : Frag Std a) (hn : ∀ b c, a = .expr [S "Power", b, c] → NotZero V x b) : DSound V A T x a (diffRules[6]'(by decide)) := by
  refine dsound_plain hS.locals (by decide +kernel) fun ρ hc hm hu hd => ?_
  have hM := dmatch_of hS (p := call "Log" [any "a"]) hf hn rfl ⟨rfl, rfl⟩ hc hm
  have hfill := fun z => hM.fill hS (fpat_of (n := 9) (by decide +kernel)) (by decide +kernel) z
  have ht := (hfill 0).2
  obtain ⟨wa, ha, fa, na⟩ := taken_any (hS.table.std 0) (by decide) (by decide) (ht (false, "System`Log", any "a") (by decide +kernel))
  have hval := fun z => (hfill z).1
  have hxx := hM.atX
  have hq := hM.noSeq
  clear ht hfill hm hc hM
  simp only [String.reduceAppend, Unbound] at *
  have e1 : fill ρ (call "Log" [any "a"]) = .expr [.sym "System`Log", wa] := by rule_sides [ha, hu]
  have e2 : subst ρ (mul [diff (var "a"), pow (var "a") (.int (-1))]) =
      .expr [.sym "System`Times", .expr [.sym "System`D", wa, .sym x], .expr [.sym "System`Power", wa, .int (-1)]] := by rule_sides [ha, hu, hd, hxx, diff]
  rw [e1] at hval
  rw [e2]
  clear e1 e2 hu hd
  refine ⟨by simp [frag_dcall, DStd, stdHeads, Frag.sym, Frag.int, frag_dstd fa], diff_goal hS hq (by simp [hasHead]) fun F hF => ?_⟩
  have hpt : ∀ᶠ z in mostly, ∃ u, (V.put x z).meaning.val wa = some u ∧ u ≠ 0 ∧ Complex.log u = F z := by
    filter_upwards [(link_val (V := V) (x := x) (std_noDiff hf) hq).1 F hF] with z hz
    have hv := hval z
    rw [Meaning.argVals_app (by decide), Meaning.argVals_one _ hq, List.cons.injEq] at hv
    rw [← hv.1] at hz
    rule_hyp [na, (put_standard hS.elem.toStandard hS.var z).op_log] at hz
    exact hz
  obtain ⟨Fa, ka, ga, la⟩ := fun_of_val hS.elem fa na (by filter_upwards [hpt] with z hz; obtain ⟨u, h1, _⟩ := hz; rw [h1]; rfl)
  have h0 : ∀ᶠ z in mostly, Fa z ≠ 0 := by
    filter_upwards [hpt, la] with z k1 k2
    obtain ⟨u, h1, h2, _⟩ := k1
    rw [k2] at h1; cases h1; exact h2
  have e : (fun z => Complex.log (Fa z)) =ᶠ[mostly] F := by
    filter_upwards [hpt, la] with z k1 k2
    obtain ⟨u, h1, _, h3⟩ := k1
    rw [k2] at h1; cases h1; exact h3
  rw [val_two (s := "System`Times") (by decide) (by simp [hasHead]) (by simp [hasHead]), val_two (s := "System`Power") (by decide) na rfl]
  refine (hasFun_times (val_diff hS na ⟨Fa, ka, .rfl⟩) (hasFun_power (K := fun z => (Fa z)⁻¹) ⟨Fa, ka, .rfl⟩ (hasFun_int (-1)) ?_)).congr
    ((deriv_log_mostly ga h0).symm.trans (deriv_congr e))
  filter_upwards [h0] with z hz
  simpa using powValue_neg_one_some hz

include hS in
/-- `D[Sin[a], x]` -/
theorem d_7 {a : Ex} (hf : Frag Std a) (hn : ∀ b c, a = .expr [S "Power", b, c] → NotZero V x b) : DSound V A T x a (diffRules[7]'(by decide)) := by
  refine dsound_plain hS.locals (by decide +kernel) fun ρ hc hm hu hd => ?_
  have hM := dmatch_of hS (p := call "Sin" [any "a"]) hf hn rfl ⟨rfl, rfl⟩ hc hm
  have hfill := fun z => hM.fill hS (fpat_of (n := 9) (by decide +kernel)) (by decide +kernel) z
  have ht := (hfill 0).2
  obtain ⟨wa, ha, fa, na⟩ := taken_any (hS.table.std 0) (by decide) (by decide) (ht (false, "System`Sin", any "a") (by decide +kernel))
  have hval := fun z => (hfill z).1
  have hxx := hM.atX
  have hq := hM.noSeq
  clear ht hfill hm hc hM
  simp only [String.reduceAppend, Unbound] at *
  have e1 : fill ρ (call "Sin" [any "a"]) = .expr [.sym "System`Sin", wa] := by rule_sides [ha, hu]
  have e2 : subst ρ (mul [diff (var "a"), call "Cos" [var "a"]]) =
      .expr [.sym "System`Times", .expr [.sym "System`D", wa, .sym x], .expr [.sym "System`Cos", wa]] := by rule_sides [ha, hu, hd, hxx, diff]
  rw [e1] at hval
  rw [e2]
  clear e1 e2 hu hd
  refine ⟨by simp [frag_dcall, DStd, stdHeads, Frag.sym, Frag.int, frag_dstd fa], diff_goal hS hq (by simp [hasHead]) fun F hF => ?_⟩
  have hpt : ∀ᶠ z in mostly, ∃ u, (V.put x z).meaning.val wa = some u ∧ Complex.sin u = F z := by
    filter_upwards [(link_val (V := V) (x := x) (std_noDiff hf) hq).1 F hF] with z hz
    have hv := hval z
    rw [Meaning.argVals_app (by decide), Meaning.argVals_one _ hq, List.cons.injEq] at hv
    rw [← hv.1] at hz
    rule_hyp [na, (put_standard hS.elem.toStandard hS.var z).op_sin] at hz
    exact hz
  obtain ⟨Fa, ka, ga, la⟩ := fun_of_val hS.elem fa na (by filter_upwards [hpt] with z hz; obtain ⟨u, h1, _⟩ := hz; rw [h1]; rfl)
  have e : (fun z => Complex.sin (Fa z)) =ᶠ[mostly] F := by
    filter_upwards [hpt, la] with z k1 k2
    obtain ⟨u, h1, h3⟩ := k1
    rw [k2] at h1; cases h1; exact h3
  rw [val_two (s := "System`Times") (by decide) (by simp [hasHead]) (by simp [hasHead]), val_single (by decide) na]
  refine (hasFun_times (val_diff hS na ⟨Fa, ka, .rfl⟩) (hasFun_fn (K := fun z => Complex.cos (Fa z)) (by decide) (by decide) ⟨Fa, ka, .rfl⟩
    (Eventually.of_forall fun z => hS.elem.cos _))).congr (EventuallyEq.trans ?_ (deriv_congr e))
  filter_upwards [deriv_comp_mostly Complex.hasDerivAt_sin ga] with z hz
  rw [hz]; ring

include hS in
/-- `D[Cos[a], x]` -/
theorem d_8 {a : Ex} (hf : Frag Std a) (hn : ∀ b c, a = .expr [S "Power", b, c] → NotZero V x b) : DSound V A T x a (diffRules[8]'(by decide)) := by
  refine dsound_plain hS.locals (by decide +kernel) fun ρ hc hm hu hd => ?_
  have hM := dmatch_of hS (p := call "Cos" [any "a"]) hf hn rfl ⟨rfl, rfl⟩ hc hm
  have hfill := fun z => hM.fill hS (fpat_of (n := 9) (by decide +kernel)) (by decide +kernel) z
  have ht := (hfill 0).2
  obtain ⟨wa, ha, fa, na⟩ := taken_any (hS.table.std 0) (by decide) (by decide) (ht (false, "System`Cos", any "a") (by decide +kernel))
  have hval := fun z => (hfill z).1
  have hxx := hM.atX
  have hq := hM.noSeq
  clear ht hfill hm hc hM
  simp only [String.reduceAppend, Unbound] at *
  have e1 : fill ρ (call "Cos" [any "a"]) = .expr [.sym "System`Cos", wa] := by rule_sides [ha, hu]
  have e2 : subst ρ (mul [.int (-1), diff (var "a"), call "Sin" [var "a"]]) =
      .expr [.sym "System`Times", .int (-1), .expr [.sym "System`D", wa, .sym x], .expr [.sym "System`Sin", wa]] := by rule_sides [ha, hu, hd, hxx, diff]
  rw [e1] at hval
  rw [e2]
  clear e1 e2 hu hd
  refine ⟨by simp [frag_dcall, DStd, stdHeads, Frag.sym, Frag.int, frag_dstd fa], diff_goal hS hq (by simp [hasHead]) fun F hF => ?_⟩
  have hpt : ∀ᶠ z in mostly, ∃ u, (V.put x z).meaning.val wa = some u ∧ Complex.cos u = F z := by
    filter_upwards [(link_val (V := V) (x := x) (std_noDiff hf) hq).1 F hF] with z hz
    have hv := hval z
    rw [Meaning.argVals_app (by decide), Meaning.argVals_one _ hq, List.cons.injEq] at hv
    rw [← hv.1] at hz
    rule_hyp [na, (put_standard hS.elem.toStandard hS.var z).op_cos] at hz
    exact hz
  obtain ⟨Fa, ka, ga, la⟩ := fun_of_val hS.elem fa na (by filter_upwards [hpt] with z hz; obtain ⟨u, h1, _⟩ := hz; rw [h1]; rfl)
  have e : (fun z => Complex.cos (Fa z)) =ᶠ[mostly] F := by
    filter_upwards [hpt, la] with z k1 k2
    obtain ⟨u, h1, h3⟩ := k1
    rw [k2] at h1; cases h1; exact h3
  rw [val_three (by decide) rfl (by simp [hasHead]) (by simp [hasHead]), val_single (by decide) na]
  refine (hasFun_times3 (hasFun_int (-1)) (val_diff hS na ⟨Fa, ka, .rfl⟩) (hasFun_fn (K := fun z => Complex.sin (Fa z)) (by decide) (by decide) ⟨Fa, ka, .rfl⟩
    (Eventually.of_forall fun z => hS.elem.sin _))).congr (EventuallyEq.trans ?_ (deriv_congr e))
  filter_upwards [deriv_comp_mostly Complex.hasDerivAt_cos ga] with z hz
  rw [hz]; push_cast; ring

/-- The value does not depend on a symbol that does not occur. -/
theorem val_free {V : Interp} {x : String} (z w : ℂ) : ∀ (n : Nat) (e : Ex), sizeOf e < n → .sym x ∉ pieces e →
    (V.put x z).meaning.argVals e = (V.put x w).meaning.argVals e := by
  intro n
  induction n with
  | zero => intro e h; exact absurd h (by omega)
  | succ n ih =>
    intro e hn hx
    have hatom : ∀ a : Ex, a ≠ .sym x → (V.put x z).meaning.atom a = (V.put x w).meaning.atom a := by
      intro a ha
      change atomValue _ a = atomValue _ a
      cases a with
      | sym s =>
        have : s ≠ x := fun h => ha (by rw [h])
        simp [atomValue, Interp.put, this]
      | _ => rfl
    have hop : (V.put x z).meaning.op = (V.put x w).meaning.op := rfl
    match e, hn, hx with
    | .int n, _, _ => rfl
    | .flt n, _, _ => rfl
    | .str n, _, _ => rfl
    | .sym s, _, hx =>
      simp only [Meaning.argVals]
      rw [hatom]
      intro h; exact hx (by rw [← h]; exact pieces_self _)
    | .rat a b, _, _ =>
      simp only [Meaning.argVals]
      rw [hop, hatom _ (by simp), hatom _ (by simp)]
    | .cplx re im, hn, hx =>
      simp only [Meaning.argVals]
      rw [hop, ih re (by simp only [Ex.cplx.sizeOf_spec] at hn; omega) (fun h => hx (by simp [pieces, h])),
        ih im (by simp only [Ex.cplx.sizeOf_spec] at hn; omega) (fun h => hx (by simp [pieces, h]))]
    | .expr [], _, _ => simp only [Meaning.argVals]; rw [hatom _ (by simp)]
    | .expr (h :: args), hn, hx =>
      have hl : ∀ l : List Ex, (∀ a ∈ l, a ∈ args) → (V.put x z).meaning.vals l = (V.put x w).meaning.vals l := by
        intro l
        induction l with
        | nil => intro _; rfl
        | cons a l ihl =>
          intro hl
          rw [Meaning.vals_cons, Meaning.vals_cons, ihl (fun b hb => hl b (by simp [hb])), ih a (by
            have := List.sizeOf_lt_of_mem (hl a (by simp))
            simp only [Ex.expr.sizeOf_spec, List.cons.sizeOf_spec] at hn; omega) (fun hh => hx (pieces_arg (List.mem_cons_of_mem _ (hl a (by simp))) hh))]
      by_cases hsym : ∃ s, h = .sym s
      · obtain ⟨s, rfl⟩ := hsym
        by_cases hs : s = "System`Sequence"
        · subst hs
          exact Meaning.argVals_seq.trans ((hl args (fun a h => h)).trans Meaning.argVals_seq.symm)
        · rw [Meaning.argVals_app hs, Meaning.argVals_app hs, hl args (fun a h => h), hop]
      · have : ∀ {A : Type} (M : Meaning A), M.argVals (.expr (h :: args)) = [M.atom (.expr (h :: args))] := by
          intro A M
          rw [Meaning.argVals]
          · intro s as he
            cases he
            exact hsym ⟨s, rfl⟩
          · intro n d he; cases he
          · intro a b he; cases he
        rw [this, this, hatom _ (by simp)]

include hS in
/-- `D[a, x]` for `a` free of `x` -/
theorem d_2 {a : Ex} (hf : Frag Std a) (hn : ∀ b c, a = .expr [S "Power", b, c] → NotZero V x b) : DSound V A T x a (diffRules[2]'(by decide)) := by
  intro ρ res hc hm ho hy
  have hM := dmatch_of hS (p := any "a") hf hn rfl (by rw [shape_any]; exact ⟨rfl, rfl⟩) hc hm
  obtain ⟨W, hD, hW⟩ := hM.distinct
  obtain ⟨v, hv, hs⟩ := hM.name "Private`a" (by rw [shape_any]; rfl)
  rw [any_value] at hs
  have hva := hD.inj _ _ (hW _ _ hv) (hD.whole _ (pieces_self a)) hs
  subst hva
  have hnone : ∀ s ∈ diffConsts, ρ s = none := by
    intro s hs
    have hb : diffConsts.all (fun s => !(patNames ((diffRules[2]'(by decide)).1)).contains s) = true := by decide +kernel
    exact ho.none (by simpa using List.all_eq_true.1 hb s hs)
  have h1 := hnone "System`Condition" (by decide)
  have h2 := hnone "System`And" (by decide)
  have h3 := hnone "System`FreeQ" (by decide)
  have h4 := hnone "System`UnsameQ" (by decide)
  have h5 := hnone "System`Indeterminate" (by decide)
  have hxx := hM.atX
  have hq := hM.noSeq
  clear hM hm hc ho
  have e2 : subst ρ ((diffRules[2]'(by decide)).2) = .expr [.sym "System`Condition", .int 0,
      .expr [.sym "System`And", .expr [.sym "System`FreeQ", v, .sym x], .expr [.sym "System`UnsameQ", v, .sym "System`Indeterminate"]]] := by
    simp [diffRules, def_, Shipped.cond, call, S, var, subst, substL, h1, h2, h3, h4, h5, hv, hxx]
  rw [e2] at hy
  generalize hq' : Ex.expr [.sym "System`Condition", .int 0,
      .expr [.sym "System`And", .expr [.sym "System`FreeQ", v, .sym x], .expr [.sym "System`UnsameQ", v, .sym "System`Indeterminate"]]] = q at hy
  cases hy with
  | plain hc => subst hq'; simp [hasHead] at hc
  | inner hc => subst hq'; simp [hasHead] at hc
  | cond hc hy =>
    simp only [S, Ex.expr.injEq, List.cons.injEq] at hq'
    obtain ⟨_, rfl, rfl, _⟩ := hq'
    obtain rfl := yields_dfrag hS.locals (.int 0) hy
    have hfree := hS.free v ((hS.truth 0).both _ _ hc).1
    refine ⟨.int 0, diff_goal hS hq rfl fun F hF => ?_⟩
    have hl := (link_val (V := V) (x := x) (std_noDiff hf) hq).1 F hF
    obtain ⟨z0, hz0⟩ := hl.exists
    replace hz0 : (V.put x z0).meaning.val v = some (F z0) := hz0
    have e : (fun _ => F z0) =ᶠ[mostly] F := by
      filter_upwards [hl] with z hz
      replace hz : (V.put x z).meaning.val v = some (F z) := hz
      have := val_free (V := V) (x := x) z z0 _ v (Nat.lt_succ_self _) hfree
      rw [Meaning.argVals_one _ hq, Meaning.argVals_one _ hq, hz, hz0] at this
      simp only [List.cons.injEq, Option.some.injEq, and_true] at this
      exact this.symm
    refine (hasFun_int 0).congr (EventuallyEq.trans (Eventually.of_forall fun z => ?_) (deriv_congr e))
    simp

include hS in
/-- Every rule of `D` gives the derivative. -/
theorem diff_sound {a : Ex} (hf : Frag Std a) (hn : ∀ b c, a = .expr [S "Power", b, c] → NotZero V x b) : ∀ r ∈ diffRules, DSound V A T x a r := by
  intro r hr
  obtain ⟨i, hi, rfl⟩ := List.getElem_of_mem hr
  have : i < 9 := hi
  match i, this with
  | 0, _ => exact d_0 hS hf hn
  | 1, _ => exact d_1 hS hf hn
  | 2, _ => exact d_2 hS hf hn
  | 3, _ => exact d_3 hS hf hn
  | 4, _ => exact d_4 hS hf hn
  | 5, _ => exact d_5 hS hf hn
  | 6, _ => exact d_6 hS hf hn
  | 7, _ => exact d_7 hS hf hn
  | 8, _ => exact d_8 hS hf hn
  | n + 9, h => omega

end
end Expreduce
