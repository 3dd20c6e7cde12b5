import Verif.Proofs.DiffRules
import Verif.Proofs.Checked

/-! Evaluation with the rules of `D`. -/

namespace Expreduce
open Ex Shipped Filter Topology

section
variable {V : Interp} {x : String}

theorem fun_op_some (s : String) (Fs : List (ℂ → ℂ)) : (funMeaning V x).op s (Fs.map some) = funOp V s Fs := by
  simp only [funMeaning, allSome_some, Option.bind_some]

theorem fun_op_def {s : String} {xs : List (Option (ℂ → ℂ))} {F : ℂ → ℂ} (h : (funMeaning V x).op s xs = some F) : ∃ Fs : List (ℂ → ℂ), xs = Fs.map some ∧ funOp V s Fs = some F := by
  simp only [funMeaning] at h
  obtain ⟨Fs, h1, h2⟩ := Option.bind_eq_some_iff.1 h
  exact ⟨Fs, allSome_map.1 h1, h2⟩

theorem fun_plus (Fs : List (ℂ → ℂ)) : funOp V "System`Plus" Fs = some (fun z => (Fs.map (· z)).sum) := by
  rw [funOp, if_neg (by decide)]
  exact lift_eq fun z => arith_plus V _

theorem fun_times (Fs : List (ℂ → ℂ)) : funOp V "System`Times" Fs = some (fun z => (Fs.map (· z)).prod) := by
  rw [funOp, if_neg (by decide)]
  exact lift_eq fun z => arith_times V _

theorem fun_flat {xs ys zs : List (Option (ℂ → ℂ))} {s : String} (hs : s = "System`Plus" ∨ s = "System`Times") :
    (funMeaning V x).op s (xs ++ (funMeaning V x).op s ys :: zs) = (funMeaning V x).op s (xs ++ (ys ++ zs)) := by
  apply Option.ext
  intro v
  constructor
  · intro h
    obtain ⟨l, h1, h2⟩ := fun_op_def h
    obtain ⟨l1, l2, rfl, h3, h4⟩ := List.map_eq_append_iff.1 h1.symm
    obtain ⟨w, l3, rfl, h5, h6⟩ := List.map_eq_cons_iff.1 h4
    obtain ⟨l4, h7, h8⟩ := fun_op_def h5.symm
    rw [h7, ← h3, ← h6, ← List.map_append, ← List.map_append, fun_op_some, ← h2]
    rcases hs with rfl | rfl
    · rw [fun_plus] at h8 ⊢; rw [fun_plus]; cases h8; simp
    · rw [fun_times] at h8 ⊢; rw [fun_times]; cases h8; simp
  · intro h
    obtain ⟨l, h1, h2⟩ := fun_op_def h
    obtain ⟨l1, l2, rfl, h3, h4⟩ := List.map_eq_append_iff.1 h1.symm
    obtain ⟨l3, l4, rfl, h5, h6⟩ := List.map_eq_append_iff.1 h4
    rw [← h3, ← h5, ← h6, fun_op_some, ← h2]
    rcases hs with rfl | rfl
    · rw [fun_plus, ← List.map_cons, ← List.map_append, fun_op_some, fun_plus, fun_plus]; simp
    · rw [fun_times, ← List.map_cons, ← List.map_append, fun_op_some, fun_times, fun_times]; simp

theorem fun_perm {xs ys : List (Option (ℂ → ℂ))} {s : String} (hs : s = "System`Plus" ∨ s = "System`Times") (h : xs.Perm ys) :
    (funMeaning V x).op s xs = (funMeaning V x).op s ys := by
  have key : ∀ {xs ys : List (Option (ℂ → ℂ))}, xs.Perm ys → ∀ v, (funMeaning V x).op s xs = some v → (funMeaning V x).op s ys = some v := by
    intro xs ys h v hv
    obtain ⟨l, rfl, h2⟩ := fun_op_def hv
    obtain ⟨l', h3, h4⟩ : ∃ l', ys = l'.map some ∧ l.Perm l' := by
      refine ⟨ys.map (fun o => o.getD 0), ?_, ?_⟩
      · rw [List.map_map]
        conv_lhs => rw [← List.map_id ys]
        refine List.map_congr_left ?_
        intro o ho
        obtain ⟨x, _, rfl⟩ := List.mem_map.1 (h.mem_iff.2 ho)
        rfl
      · have := h.map (fun o => o.getD 0)
        rw [List.map_map] at this
        simpa [Function.comp_def] using this
    rw [h3, fun_op_some, ← h2]
    rcases hs with rfl | rfl
    · rw [fun_plus, fun_plus]; congr 1; funext z; exact ((h4.map (· z)).sum_eq).symm
    · rw [fun_times, fun_times]; congr 1; funext z; exact ((h4.map (· z)).prod_eq).symm
  apply Option.ext
  intro v
  exact ⟨key h v, key h.symm v⟩

theorem agrees_list : ∀ {Fs : List (ℂ → ℂ)} {ys : List (Option (ℂ → ℂ))}, List.Forall₂ Agrees (Fs.map some) ys → List.Forall₂ HasFun ys Fs
  | [], _, .nil => .nil
  | F :: Fs, _, .cons h t => .cons (h F rfl) (agrees_list t)

/-- Arguments that agree give values that agree. -/
theorem fun_mono (s : String) (xs ys : List (Option (ℂ → ℂ))) (h : List.Forall₂ Agrees xs ys) : Agrees ((funMeaning V x).op s xs) ((funMeaning V x).op s ys) := by
  intro F hF
  obtain ⟨Fs, rfl, h2⟩ := fun_op_def hF
  have hl := agrees_list h
  by_cases hs : s = "System`D"
  · subst hs
    rw [funOp, if_pos rfl] at h2
    match Fs, h2, hl with
    | [], h2, _ => simp [diffOp] at h2
    | [_], h2, _ => simp [diffOp] at h2
    | _ :: _ :: _ :: _, h2, _ => simp [diffOp] at h2
    | [F1, X], h2, .cons (a := a) h3 (.cons (a := b) h4 .nil) =>
      simp only [diffOp] at h2
      split at h2
      · rename_i hX
        cases h2
        obtain ⟨G1, rfl, e1⟩ := h3
        obtain ⟨X1, rfl, e2⟩ := h4
        refine ⟨deriv G1, ?_, deriv_congr e1⟩
        have := fun_op_some (V := V) (x := x) "System`D" [G1, X1]
        simp only [List.map_cons, List.map_nil] at this
        rw [this, funOp, if_pos rfl, diffOp, if_pos (e2.symm.trans hX)]
      · cases h2
  · rw [funOp, if_neg hs] at h2
    exact hasFun_op hs hl (lift_some h2)

end

section
variable {V : Interp} {A : AlgParams} {T : Table} {x : String}

theorem without_same {s : String} (hs : s ≠ "System`D") : withoutDiff T s = T s := by simp [withoutDiff, hs]

theorem env_without (truth : Ex → Bool) : envOf { defs := withoutDiff T } truth = envOf { defs := T } truth := tabEnv_without { truth := truth } T

theorem noDiff_real {e : Ex} (h : ExactReal e) : noDiff e = true := std_noDiff (frag_real h)

theorem noDiff_cplx {re im : Ex} (h1 : ExactReal re) (h2 : ExactReal im) : noDiff (.cplx re im) = true := by
  have k1 := noDiff_real h1
  have k2 := noDiff_real h2
  simp only [noDiff, List.all_eq_true] at *
  intro a ha
  simp only [pieces, List.mem_cons, List.mem_append] at ha
  rcases ha with rfl | rfl | rfl | ha | ha
  · rfl
  · simp [Expreduce.opened, partsOf, S, hasHead]
  · rfl
  · exact k1 a ha
  · exact k2 a ha

theorem noDiff_evalComplex {re im : Ex} (h1 : ExactReal re) (h2 : ExactReal im) : noDiff (evalComplex re im) = true := by
  unfold evalComplex
  split
  · exact noDiff_real (canon_exact (evalReal_exact h1))
  · exact noDiff_cplx (canon_exact (evalReal_exact h1)) (canon_exact (evalReal_exact h2))

theorem ClashFree.mono {env : MEnv} {h1 h2 : List String} {p e : Ex} {ρ : String → Option Ex} (h : ∀ s ∈ h1, s ∈ h2) (hc : ClashFree env h2 p e ρ) : ClashFree env h1 p e ρ := by
  obtain ⟨W, hD, hW⟩ := hc
  exact ⟨W, hD.sub h (fun _ h => h) (fun _ h => h) (pieces_part e) (pieces_opened e), hW⟩

/-- Nothing goes wrong with the rules that are not of `D`, either. -/
theorem clean_without {s : String} {e : Ex} (hs : s ≠ "System`D") (h : Clean A T ("System`D" :: lhsHeads) s e) : Clean A (withoutDiff T) lhsHeads s e where
  noSeq := h.noSeq
  terms := h.terms
  power := h.power
  rules := by
    intro d dv hd hdv rs pm' hm r hr
    rw [without_same hs] at hd
    rw [env_without] at hm ⊢
    exact (h.rules d dv hd hdv rs pm' hm r hr).mono (fun s hs => List.mem_cons_of_mem _ hs)

theorem related_refl_fun (e : Ex) : Related (funMeaning V x) Agrees e e := List.forall₂_same.2 (fun a _ => Agrees.refl a)

theorem diffRules_epat : ∀ r ∈ diffRules, EPat r.1 := by
  have : diffRules.all (fun r => epatB 60 r.1) = true := by decide +kernel
  intro r hr
  exact epatB_sound (List.all_eq_true.1 this r hr)

variable (hS : DiffSetup V A T x)
include hS

/-- The other rules are right for all values of the variable. -/
theorem without_sound (z : ℂ) : SoundTable (V.put x z) A (withoutDiff T) (· ∈ stdHeads) lhsHeads :=
  stdTable_sound (put_standard hS.elem.toStandard hS.var z) (hS.truth z) (hS.table.std z) hS.locals

theorem diff_fn {s : String} {n : Nat} {ev : Evaluator} {st st' : EState} {args : List Ex} {e' : Ex} (ho : ∀ l, (A.order l).Perm l)
    (he : Frag DStd (.expr (.sym s :: args))) (hc : Clean A T ("System`D" :: lhsHeads) s (.expr (.sym s :: args))) (hd : DiffCall V x s (.expr (.sym s :: args)))
    (hi : ImagClean e') (h : algFn A s n ev st (.sym s :: args) = .ok (st', e')) :
    st' = st ∧ Frag DStd e' ∧ Related (funMeaning V x) Agrees (.expr (.sym s :: args)) e' := by
  by_cases hs : s = "System`D"
  · subst hs
    simp only [algFn] at h
    repeat rw [if_neg (by decide)] at h
    cases h
    exact ⟨rfl, he, related_refl_fun _⟩
  · have hn := hd.done hs
    have hf := frag_std he hn
    have hz := fun z => fn_related (without_sound hS z) ho hf (clean_without hs hc) hi h
    obtain ⟨h1, h2, _⟩ := hz 0
    exact ⟨h1, frag_dstd h2, related_fun hn (std_noDiff h2) fun z => (hz z).2.2⟩

theorem diff_find {st : EState} (hst : st.defs = T) {s : String} {e r : Ex} (he : Frag DStd e) (hc : Clean A T ("System`D" :: lhsHeads) s e) (hd : DiffCall V x s e)
    (h : getDef st.toDState (envOf st A.truth) A.locals A.bound A.bound s e = some (some r)) : Frag DStd r ∧ Related (funMeaning V x) Agrees e r := by
  by_cases hs : s = "System`D"
  · subst hs
    obtain ⟨a, rfl, ha, hn⟩ := hd.call rfl
    unfold getDef at h
    split at h
    · simp at h
    · rename_i d hd'
      rw [hst] at hd'
      obtain ⟨dv, hdv, hr⟩ := rulesReplace_some h
      rw [envOf_defs hst] at hr
      have hrule := hS.table.rules d dv hd' hdv
      have hp := diffRules_epat _ hrule
      have : (envOf { defs := T } A.truth).Exact := by
        have := (without_sound hS 0).dflt
        rwa [env_without] at this
      have hfa : Frag Std a := frag_std ((frag_args he).2 a (by simp)) ha
      unfold replace at hr
      split at hr
      · simp at hr
      · rename_i rs pm' hm
        obtain ⟨l, b, t, rfl, hy, _⟩ := replaceLoop_some hr
        have h1 := matchF_matches hp (frag_noReal he) hm b (by simp)
        have h2 : OnlyNames (bindingsOf b) dv.lhs := matchF_names hp hm b (by simp)
        have h0 := hc.rules d dv hd' hdv _ _ hm b (by simp)
        exact diff_sound hS hfa hn _ hrule _ _ h0 h1 h2 hy
  · have hn := hd.done hs
    have hf := frag_std he hn
    have hg : getDef ({ st with defs := withoutDiff T } : EState).toDState (envOf ({ st with defs := withoutDiff T } : EState) A.truth) A.locals A.bound A.bound s e = some (some r) := by
      rw [envOf_defs (D := withoutDiff T) rfl, env_without]
      rw [envOf_defs hst] at h
      unfold getDef at h ⊢
      simp only [without_same hs]
      rw [hst] at h
      exact h
    have hz := fun z => find_related (without_sound hS z) (st := { st with defs := withoutDiff T }) rfl hf (clean_without hs hc) hg
    obtain ⟨h1, _⟩ := hz 0
    exact ⟨frag_dstd h1, related_fun hn (std_noDiff h1) fun z => (hz z).2⟩

theorem attrs_dstd {st : EState} (hst : st.defs = T) {s : String} (hs : DStd s) (h : (attrsOf st s).flat = true ∨ (attrsOf st s).orderless = true) :
    s = "System`Plus" ∨ s = "System`Times" := by
  unfold attrsOf at h
  rw [hst] at h
  cases hd : T s with
  | none => rw [hd] at h; simp at h
  | some d =>
    rw [hd] at h
    rcases hs with hs | rfl
    · have hne : s ≠ "System`D" := by rintro rfl; exact absurd hs (by decide)
      have hw : withoutDiff T s = some d := by rw [without_same hne, hd]
      rcases h with h | h
      · simpa using (without_sound hS 0).flat s d hs hw (by simpa using h)
      · simpa using (without_sound hS 0).orderless s d hs hw (by simpa using h)
    · obtain ⟨h1, h2, _⟩ := hS.table.plain d hd
      rcases h with h | h
      · simp [h1] at h
      · simp [h2] at h

theorem diffRules_noValue {s : String} {v : Ex} (h : getSymDef { defs := T } s = some v) : s ≠ "System`D" := by
  rintro rfl
  have hb : diffRules.all (fun r => !isSymbolRule r.1) = true := by decide +kernel
  obtain ⟨d, dv, h1, h2, h3, h4⟩ := getSymDef_mem h
  have := List.all_eq_true.1 hb _ (hS.table.rules d dv h1 h2)
  simp [h3] at this

theorem symDef_without {s : String} (hs : s ≠ "System`D") : getSymDef { defs := withoutDiff T } s = getSymDef { defs := T } s := by
  unfold getSymDef
  simp only [without_same hs]

/-- Evaluation keeps the function. -/
theorem diff_respects (ho : ∀ l, (A.order l).Perm l) :
    RespectsMeaning ((algCtx A).guard (fun s e => Clean A T ("System`D" :: lhsHeads) s e ∧ DiffCall V x s e) ImagClean) (funMeaning V x) Agrees DStd (Running T) where
  refl := Agrees.refl
  trans := fun _ _ _ => Agrees.trans
  mono := fun s _ => fun_mono s
  calm := fun st h => ⟨h.2.1, h.2.2⟩
  heads := fun st h s hs => by
    have e : getSymDef st.toDState s = getSymDef { defs := T } s := by unfold getSymDef; rw [h.1]
    rw [e]
    cases hg : getSymDef { defs := T } s with
    | none => rfl
    | some v =>
      exfalso
      have hne := diffRules_noValue hS hg
      rcases hs with hs | hs
      · have := (without_sound hS 0).noValue s hs
        rw [symDef_without hS hne, hg] at this
        cases this
      · exact hne hs
  values := fun st h s d hd => by
    have e : getSymDef st.toDState s = getSymDef { defs := T } s := by unfold getSymDef; rw [h.1]
    rw [e] at hd
    have hne := diffRules_noValue hS hd
    rw [← symDef_without hS hne] at hd
    have hz := fun z => (without_sound hS z).values s d hd
    exact ⟨frag_dstd (hz 0).1, related_fun rfl (std_noDiff (hz 0).1) fun z => (hz z).2⟩
  rational := fun n d hd => by
    exact related_fun (noDiff_real (e := .rat n d) hd) (std_noDiff (evalRational_frag n d hd)) fun z => rational_related (V.put x z) hd
  complex := fun re im h1 h2 => by
    exact related_fun (noDiff_cplx h1 h2) (noDiff_evalComplex h1 h2) fun z => complex_related (V.put x z) h1 h2
  flat := fun st h s hs hf => by
    have hm := attrs_dstd hS h.1 hs (.inl hf)
    refine ⟨?_, fun xs ys zs => fun_flat hm⟩
    rcases hm with rfl | rfl <;> decide
  orderless := fun st h s hs hf => by
    have hm := attrs_dstd hS h.1 hs (.inr hf)
    refine ⟨?_, fun xs ys hp => fun_perm hm hp⟩
    rcases hm with rfl | rfl <;> decide
  listable := fun st h s args e _ hf ht => by
    exfalso
    unfold threadExpr at ht
    simp only [no_lists (H := DStd) (by simp [DStd]; decide) (frag_args hf).2] at ht
    cases ht
  sort := fun l => insertionSort_perm _ l
  fn := by
    intro s n ev st args st' e' _ hI hF h
    simp only [Ctx.guard] at h
    split at h
    · rename_i hQ
      obtain ⟨q, h1, h2⟩ := Res.bind_ok h
      split at h2
      · rename_i hP
        cases h2
        obtain ⟨h3, h4⟩ := diff_fn hS (ev := ev) ho hF hQ.1 hQ.2 hP h1
        rw [h3]
        exact ⟨hI, h4⟩
      · cases h2
    · cases h
  find := by
    intro s ev st e st' r _ hI hF h
    simp only [Ctx.guard] at h
    split at h
    · rename_i hQ
      simp only [algCtx, algFind] at h
      split at h
      · cases h
      · rename_i r' hr
        cases h
        refine ⟨hI, fun e' he' => ?_⟩
        subst he'
        exact diff_find hS hI.1 hF hQ.1 hQ.2 hr
    · cases h
  plain := by
    intro s hs h
    rcases h with h | rfl
    · exact (without_sound hS 0).plain s (by
        simp only [List.mem_cons, List.not_mem_nil, or_false] at hs ⊢
        tauto) h
    · exact absurd hs (by decide)

end
end Expreduce
