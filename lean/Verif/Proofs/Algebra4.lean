import Verif.Proofs.Algebra3
import Verif.Proofs.OrderSort
import Verif.Props.Replace

/-! Rules, and the whole interpreter. -/

namespace Expreduce
open Ex

section
variable {V : Interp} {A : AlgParams} {D : Table} {H : String → Prop} {heads : List String}

theorem frag_noReal : ∀ {e : Ex}, Frag H e → noReal e = true
  | _, .sym s => rfl
  | _, .str s => rfl
  | _, .int n => rfl
  | _, .rat h => rfl
  | _, .cplx (re := re) (im := im) h1 h2 _ => by
    rw [noReal]
    cases re <;> simp only [ExactReal] at h1 <;> cases im <;> simp only [ExactReal] at h2 <;> rfl
  | _, .app (s := s) (args := args) _ h => by
    rw [noReal, noRealL]
    have : ∀ l : List Ex, (∀ a ∈ l, noReal a = true) → noRealL l = true := by
      intro l
      induction l with
      | nil => intro _; rfl
      | cons a l ih => intro h; rw [noRealL, h a (by simp), ih (fun b hb => h b (by simp [hb]))]; rfl
    rw [this args (fun a ha => frag_noReal (h a ha))]; rfl

theorem pieces_frag_real (hr : H "System`Rational") {e : Ex} (h : ExactReal e) : ∀ a ∈ pieces e, Frag H a := by
  cases e <;> simp only [ExactReal] at h
  · intro x hx; simp [pieces] at hx; subst hx; exact .int _
  · rename_i n d
    intro x hx
    simp only [pieces, List.mem_cons, List.not_mem_nil, or_false] at hx
    rcases hx with rfl | rfl | rfl | rfl | rfl
    · exact .rat h
    · refine .app (s := "System`Rational") (args := [.int n, .int d]) hr ?_
      intro a ha; simp at ha; rcases ha with rfl | rfl <;> exact .int _
    · exact .sym _
    · exact .int _
    · exact .int _

theorem frag_real {e : Ex} (h : ExactReal e) : Frag H e := by
  cases e <;> simp only [ExactReal] at h
  · exact .int _
  · exact .rat h

/-- The pieces of an expression of the fragment are in the fragment. -/
theorem pieces_frag (hr : H "System`Rational") (hc : H "System`Complex") : ∀ {e : Ex}, Frag H e → ∀ a ∈ pieces e, Frag H a
  | _, .sym s, a, ha => by simp [pieces] at ha; subst ha; exact .sym s
  | _, .str s, a, ha => by simp [pieces] at ha; subst ha; exact .str s
  | _, .int n, a, ha => by simp [pieces] at ha; subst ha; exact .int n
  | _, .rat h, a, ha => pieces_frag_real hr (e := .rat _ _) h a ha
  | _, .cplx (re := re) (im := im) h1 h2 h3, a, ha => by
    simp only [pieces, List.mem_cons, List.mem_append] at ha
    rcases ha with rfl | rfl | rfl | ha | ha
    · exact .cplx h1 h2 h3
    · refine .app (s := "System`Complex") (args := [re, im]) hc ?_
      intro a ha; simp at ha; rcases ha with rfl | rfl
      · exact frag_real h1
      · exact frag_real h2
    · exact .sym _
    · exact pieces_frag_real hr h1 a ha
    · exact pieces_frag_real hr h2 a ha
  | _, .app (s := s) (args := args) hs h, a, ha => by
    rcases mem_pieces_expr ha with rfl | ⟨b, hb, ha⟩
    · exact .app hs h
    · rcases List.mem_cons.1 hb with rfl | hb
      · simp [pieces] at ha; subst ha; exact .sym _
      · exact pieces_frag hr hc (h b hb) a ha

/-- The environment of the rules depends only on the table. -/
theorem envOf_defs {st : EState} (h : st.defs = D) (truth : Ex → Bool) : envOf st truth = envOf { defs := D } truth := by
  simp [envOf, attrsOf, h]

theorem ruleSides_rule (lhs rhs : Ex) : ruleSides (.expr [S "Rule", lhs, rhs]) = some (lhs, rhs) := by
  rfl

theorem rulesReplace_some {env : MEnv} {locals : Ex → Option Ex} {m n : Nat} {e res : Ex} : ∀ {dvs : List DV},
    rulesReplace env locals m n e (dvs.map (fun dv => .expr [S "Rule", dv.lhs, dv.rhs])) = some (some res) →
    ∃ dv ∈ dvs, replace env locals m n dv.lhs dv.rhs e = some (some res)
  | [], h => by simp [rulesReplace] at h
  | dv :: dvs, h => by
    rw [List.map_cons, rulesReplace, ruleSides_rule] at h
    simp only at h
    split at h
    · cases h
    · rename_i r hr; cases h; exact ⟨dv, by simp, hr⟩
    · obtain ⟨dv', h1, h2⟩ := rulesReplace_some h
      exact ⟨dv', by simp [h1], h2⟩

/-- A rule of a sound table keeps the value. -/
theorem find_related (hT : SoundTable V A D H heads) {st : EState} (hst : st.defs = D) {s : String} {e r : Ex} (he : Frag H e) (hc : Clean A D heads s e)
    (h : getDef st.toDState (envOf st A.truth) A.locals A.bound A.bound s e = some (some r)) : Frag H r ∧ Related V.meaning Refines e r := by
  unfold getDef at h
  split at h
  · simp at h
  · rename_i d hd
    have hd' : D s = some d := by rw [← hst]; exact hd
    obtain ⟨dv, hdv, hr⟩ := rulesReplace_some h
    have hs : s ≠ "System`Sequence" := by
      rintro rfl
      rw [hT.sequence d hd'] at hdv
      simp at hdv
    rw [envOf_defs hst] at hr
    obtain ⟨hp, hf, hsound⟩ := hT.rules s d dv hd' hdv
    have := hT.dflt
    unfold replace at hr
    split at hr
    · simp at hr
    · rename_i rs pm' hm
      obtain ⟨l, b, t, rfl, hy, _⟩ := replaceLoop_some hr
      have h1 := matchF_matches hp (frag_noReal he) hm b (by simp)
      have h2 : OnlyNames (bindingsOf b) dv.lhs := matchF_names hp hm b (by simp)
      have h0 := hc.rules d dv hd' hdv _ _ hm b (by simp)
      obtain ⟨h3, h4⟩ := val_of_match hT.lawful hf h0 h1
      have hpf := pieces_frag (hT.arith _ (by decide)) (hT.arith _ (by decide)) he
      obtain ⟨k1, k2⟩ := hsound _ _ (fun t ht => (h4 t ht).mono hpf) h2 hy
      refine ⟨k1, ?_⟩
      unfold Related at k2 ⊢
      have hfill : hasHead "System`Sequence" (fill (bindingsOf b) dv.lhs) = false := by
        obtain ⟨T, hD, hρ⟩ := h0
        exact fill_noSeq hD hρ hf e (pieces_self e) (fun q hq => hq) h1
      rw [Meaning.argVals_one _ hfill] at k2
      rw [Meaning.argVals_one _ (hc.noSeq hs e (pieces_self e)), ← h3]
      exact k2

/-- A builtin function keeps the value. -/
theorem fn_related (hT : SoundTable V A D H heads) (ho : ∀ l, (A.order l).Perm l) {s : String} {n : Nat} {ev : Evaluator} {st st' : EState} {args : List Ex} {e' : Ex}
    (he : Frag H (.expr (.sym s :: args))) (hc : Clean A D heads s (.expr (.sym s :: args))) (hi : ImagClean e')
    (h : algFn A s n ev st (.sym s :: args) = .ok (st', e')) :
    st' = st ∧ Frag H e' ∧ Related V.meaning Refines (.expr (.sym s :: args)) e' := by
  have hH := fun s hs => hT.arith s hs
  have hdone : ∀ r : Ex, s ≠ "System`Sequence" → (FragFree H r ∧ ∀ v, V.meaning.val (.expr (.sym s :: args)) = some v → V.meaning.val r = some v) →
      Frag H r ∧ Related V.meaning Refines (.expr (.sym s :: args)) r := by
    intro r hs hr
    exact ⟨hr.1.1, related_of V (by simp [hasHead, hs]) hr.1.2.self hr.2⟩
  have hargs : s ≠ "System`Sequence" → ∀ a ∈ args, FragFree H a := fun hs a ha =>
    ⟨(frag_args he).2 a ha, fun x hx => hc.noSeq hs x (pieces_arg (by simp [ha]) hx)⟩
  unfold algFn at h
  simp only at h
  split at h
  · rename_i hs; subst hs; cases h
    exact ⟨rfl, hdone _ (by decide) (plus_related V A.toN (hH _ (by decide)) (hH _ (by decide)) (hargs (by decide)) (hc.terms rfl _ _ rfl) hi)⟩
  split at h
  · rename_i hs; subst hs; cases h
    exact ⟨rfl, hdone _ (by decide) (times_related V A.toN (hH _ (by decide)) (hH _ (by decide)) (hargs (by decide)) hi)⟩
  split at h
  · rename_i hs; subst hs; cases h
    exact ⟨rfl, hdone _ (by decide) (rational_fn V (hH _ (by decide)) (hargs (by decide)) hi)⟩
  split at h
  · rename_i hs; subst hs; cases h
    exact ⟨rfl, hdone _ (by decide) (complex_fn V (hH _ (by decide)) (hargs (by decide)) hi)⟩
  split at h
  · rename_i hs; subst hs
    split at h
    · cases h
    · rename_i r hr
      cases h
      exact ⟨rfl, hdone _ (by decide) (power_fn V (hH _ (by decide)) (hH _ (by decide)) (hH _ (by decide)) ho (hargs (by decide)) (hc.power rfl) hr)⟩
  · cases h
    refine ⟨rfl, he, ?_⟩
    unfold Related
    exact List.forall₂_same.2 (fun x _ => Refines.refl x)

theorem plus_flat {xs ys zs : List (Option ℂ)} {s : String} (hs : s = "System`Plus" ∨ s = "System`Times") :
    V.meaning.op s (xs ++ V.meaning.op s ys :: zs) = V.meaning.op s (xs ++ (ys ++ zs)) := by
  have hop : ∀ l : List ℂ, ∃ v, arithValue V s l = some v := by
    intro l
    rcases hs with rfl | rfl
    · exact ⟨_, arith_plus V l⟩
    · exact ⟨_, arith_times V l⟩
  apply Option.ext
  intro v
  constructor
  · intro h
    obtain ⟨l, h1, h2⟩ := meaning_op_def V h
    obtain ⟨l1, l2, rfl, h3, h4⟩ := List.map_eq_append_iff.1 h1.symm
    obtain ⟨w, l3, rfl, h5, h6⟩ := List.map_eq_cons_iff.1 h4
    obtain ⟨l4, h7, h8⟩ := meaning_op_def V h5.symm
    rw [h7, ← h3, ← h6, ← List.map_append, ← List.map_append, meaning_op_some, ← h2]
    rcases hs with rfl | rfl
    · rw [arith_plus] at h8 ⊢; rw [arith_plus]; cases h8; simp
    · rw [arith_times] at h8 ⊢; rw [arith_times]; cases h8; simp
  · intro h
    obtain ⟨l, h1, h2⟩ := meaning_op_def V h
    obtain ⟨l1, l2, rfl, h3, h4⟩ := List.map_eq_append_iff.1 h1.symm
    obtain ⟨l3, l4, rfl, h5, h6⟩ := List.map_eq_append_iff.1 h4
    obtain ⟨w, hw⟩ := hop l3
    rw [← h3, ← h5, ← h6, meaning_op_some, hw, ← List.map_cons, ← List.map_append, meaning_op_some, ← h2]
    rcases hs with rfl | rfl
    · rw [arith_plus] at hw ⊢; rw [arith_plus]; cases hw; simp
    · rw [arith_times] at hw ⊢; rw [arith_times]; cases hw; simp

theorem plus_perm {xs ys : List (Option ℂ)} {s : String} (hs : s = "System`Plus" ∨ s = "System`Times") (h : xs.Perm ys) :
    V.meaning.op s xs = V.meaning.op s ys := by
  have key : ∀ {xs ys : List (Option ℂ)}, xs.Perm ys → ∀ v, V.meaning.op s xs = some v → V.meaning.op s ys = some v := by
    intro xs ys h v hv
    obtain ⟨l, rfl, h2⟩ := meaning_op_def V hv
    obtain ⟨l', h3, h4⟩ : ∃ l', ys = l'.map some ∧ l.Perm l' := by
      refine ⟨ys.map (fun o => o.getD 0), ?_, ?_⟩
      · rw [List.map_map]
        conv_lhs => rw [← List.map_id ys]
        refine List.map_congr_left ?_
        intro o ho
        obtain ⟨x, _, rfl⟩ := List.mem_map.1 (h.mem_iff.2 ho)
        rfl
      · have := h.map (fun o => o.getD 0)
        rw [List.map_map] at this
        simpa [Function.comp_def] using this
    rw [h3, meaning_op_some, ← h2]
    rcases hs with rfl | rfl
    · rw [arith_plus, arith_plus, h4.sum_eq]
    · rw [arith_times, arith_times, h4.prod_eq]
  apply Option.ext
  intro v
  exact ⟨key h v, key h.symm v⟩

theorem no_lists (hl : ¬ H "System`List") {args : List Ex} (h : ∀ a ∈ args, Frag H a) : listLengths args = [] := by
  unfold listLengths
  rw [List.filterMap_eq_nil_iff]
  intro a ha
  cases h a ha with
  | @app s as hs _ =>
    have : s ≠ "System`List" := fun h => hl (h ▸ hs)
    simp [argsOf, this]
  | _ => rfl

theorem table_respects (hT : SoundTable V A D H heads) (ho : ∀ l, (A.order l).Perm l) :
    RespectsMeaning ((algCtx A).guard (Clean A D heads) ImagClean) V.meaning Refines H (Running D) where
  refl := Refines.refl
  trans := fun _ _ _ => Refines.trans
  mono := fun s _ => meaning_mono V s
  calm := fun st h => ⟨h.2.1, h.2.2⟩
  heads := fun st h s hs => by
    have := hT.noValue s hs
    unfold getSymDef at this ⊢
    rw [h.1]; exact this
  values := fun st h s d hd => by
    refine hT.values s d ?_
    unfold getSymDef at hd ⊢
    rw [h.1] at hd; exact hd
  rational := fun n d hd => rational_related V hd
  complex := fun re im h1 h2 => complex_related V h1 h2
  flat := fun st h s hs hf => by
    have hm : s ∈ ["System`Plus", "System`Times"] := by
      unfold attrsOf at hf
      rw [h.1] at hf
      cases hd : D s with
      | none => rw [hd] at hf; simp at hf
      | some d => rw [hd] at hf; exact hT.flat s d hs hd (by simpa using hf)
    simp only [List.mem_cons, List.not_mem_nil, or_false] at hm
    refine ⟨?_, fun xs ys zs => plus_flat hm⟩
    rcases hm with rfl | rfl <;> decide
  orderless := fun st h s hs hf => by
    have hm : s ∈ ["System`Plus", "System`Times"] := by
      unfold attrsOf at hf
      rw [h.1] at hf
      cases hd : D s with
      | none => rw [hd] at hf; simp at hf
      | some d => rw [hd] at hf; exact hT.orderless s d hs hd (by simpa using hf)
    simp only [List.mem_cons, List.not_mem_nil, or_false] at hm
    refine ⟨?_, fun xs ys hp => plus_perm hm hp⟩
    rcases hm with rfl | rfl <;> decide
  listable := fun st h s args e _ hf ht => by
    exfalso
    unfold threadExpr at ht
    simp only [no_lists (hT.plain _ (by decide)) (frag_args hf).2] at ht
    cases ht
  sort := fun l => insertionSort_perm _ l
  fn := by
    intro s n ev st args st' e' _ hI hF h
    simp only [Ctx.guard] at h
    split at h
    · rename_i hQ
      obtain ⟨q, h1, h2⟩ := Res.bind_ok h
      split at h2
      · rename_i hP
        cases h2
        obtain ⟨h3, h4⟩ := fn_related (ev := ev) hT ho hF hQ hP h1
        rw [h3]
        exact ⟨hI, h4⟩
      · cases h2
    · cases h
  find := by
    intro s ev st e st' r _ hI hF h
    simp only [Ctx.guard] at h
    split at h
    · rename_i hQ
      simp only [algCtx, algFind] at h
      split at h
      · cases h
      · rename_i r' hr
        cases h
        refine ⟨hI, fun e' he' => ?_⟩
        subst he'
        exact find_related hT hI.1 hF hQ hr
    · cases h
  plain := fun s hs => hT.plain s (by
    simp only [List.mem_cons, List.not_mem_nil, or_false] at hs ⊢
    tauto)

end
end Expreduce
