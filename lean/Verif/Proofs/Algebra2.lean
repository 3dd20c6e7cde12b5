import Verif.Proofs.Algebra

/-! The builtin functions of exact arithmetic keep the values of expressions. -/

namespace Expreduce
open Ex

/-- No `Sequence[...]` in the expression. -/
def SeqFree (e : Ex) : Prop := ∀ a ∈ pieces e, hasHead "System`Sequence" a = false

theorem piecesL_mem {x : Ex} {a : Ex} : ∀ {l : List Ex}, a ∈ l → x ∈ pieces a → x ∈ piecesL l
  | b :: l, h, hx => by
    rw [piecesL]
    rcases List.mem_cons.1 h with rfl | h
    · exact List.mem_append_left _ hx
    · exact List.mem_append_right _ (piecesL_mem h hx)

theorem pieces_arg {ps : List Ex} {a x : Ex} (ha : a ∈ ps) (hx : x ∈ pieces a) : x ∈ pieces (.expr ps) := by
  rw [pieces]; exact List.mem_cons_of_mem _ (piecesL_mem ha hx)

theorem mem_pieces_expr {ps : List Ex} {x : Ex} (hx : x ∈ pieces (.expr ps)) : x = .expr ps ∨ ∃ a ∈ ps, x ∈ pieces a := by
  rw [pieces] at hx
  rcases List.mem_cons.1 hx with rfl | hx
  · exact .inl rfl
  · exact .inr (mem_piecesL.1 hx)

theorem SeqFree.part {ps : List Ex} {a : Ex} (h : SeqFree (.expr ps)) (ha : a ∈ ps) : SeqFree a := fun x hx => h x (pieces_arg ha hx)

theorem SeqFree.self {e : Ex} (h : SeqFree e) : hasHead "System`Sequence" e = false := h e (pieces_self e)

theorem ImagClean.part {ps : List Ex} {a : Ex} (h : ImagClean (.expr ps)) (ha : a ∈ ps) : ImagClean a := fun _ _ hx => h _ _ (pieces_arg ha hx)

theorem seqFree_app {s : String} {args : List Ex} (hs : s ≠ "System`Sequence") (h : ∀ a ∈ args, SeqFree a) : SeqFree (.expr (.sym s :: args)) := by
  intro x hx
  rcases mem_pieces_expr hx with rfl | ⟨a, ha, hx⟩
  · simp [hasHead, hs]
  · rcases List.mem_cons.1 ha with rfl | ha
    · simp [pieces] at hx; subst hx; rfl
    · exact h a ha x hx

theorem seqFree_real {e : Ex} (h : ExactReal e) : SeqFree e := by
  cases e <;> simp only [ExactReal] at h
  · intro x hx; simp [pieces] at hx; subst hx; rfl
  · intro x hx
    simp only [pieces, List.mem_cons, List.not_mem_nil, or_false] at hx
    rcases hx with rfl | rfl | rfl | rfl | rfl <;> simp [hasHead, opened, partsOf, S]

theorem seqFree_num {e : Ex} (h : ExactNum e) : SeqFree e := by
  cases e with
  | int n => exact seqFree_real (e := .int n) trivial
  | rat n d => exact seqFree_real (e := .rat n d) h
  | cplx a b =>
    simp only [ExactNum] at h
    intro x hx
    simp only [pieces, List.mem_cons, List.mem_append] at hx
    rcases hx with rfl | rfl | rfl | hx | hx
    · rfl
    · simp [hasHead, opened, partsOf, S]
    · rfl
    · exact seqFree_real h.1 x hx
    · exact seqFree_real h.2 x hx
  | _ => simp [ExactNum] at h

theorem seqFree_sym (s : String) : SeqFree (.sym s) := by
  intro x hx; simp [pieces] at hx; subst hx; rfl

section
variable (V : Interp) {H : String → Prop}

theorem frag_num {e : Ex} (h : ExactNum e) (hi : ImagClean e) : Frag H e := by
  cases e with
  | int n => exact .int n
  | rat n d => exact .rat h
  | cplx a b => exact .cplx h.1 h.2 (hi a b (pieces_self _))
  | _ => simp [ExactNum] at h

theorem frag_exact : ∀ {e : Ex}, Frag H e → Exact e
  | _, .sym s => .sym s
  | _, .str s => .str s
  | _, .int n => .num _ trivial
  | _, .rat h => .num _ h
  | _, .cplx h1 h2 _ => .num _ ⟨h1, h2⟩
  | _, .app (args := args) _ h => .expr _ (by
    intro p hp
    rcases List.mem_cons.1 hp with rfl | hp
    · exact .sym _
    · exact frag_exact (h p hp))

/-- The values of everything that is not a sum, a product or a number. -/
noncomputable def Interp.others (e : Ex) : ℂ := (V.meaning.val e).getD 0

theorem vals_free {args : List Ex} (h : ∀ a ∈ args, SeqFree a) : V.meaning.vals args = args.map V.meaning.val :=
  Meaning.vals_map _ (fun a ha => (h a ha).self)

theorem val_call {s : String} {args : List Ex} (h : ∀ a ∈ args, SeqFree a) :
    V.meaning.val (.expr (.sym s :: args)) = V.meaning.op s (args.map V.meaning.val) := by
  rw [Meaning.val_app, vals_free V h]

/-- A call has a value only if the arguments have. -/
theorem strict {s : String} {args : List Ex} (h : ∀ a ∈ args, SeqFree a) {v : ℂ} (hv : V.meaning.val (.expr (.sym s :: args)) = some v) :
    (∀ a ∈ args, (V.meaning.val a).isSome) ∧ arithValue V s (args.map V.others) = some v := by
  rw [val_call V h] at hv
  obtain ⟨l, h1, h2⟩ := meaning_op_def V hv
  constructor
  · intro a ha
    have : V.meaning.val a ∈ args.map V.meaning.val := List.mem_map_of_mem ha
    rw [h1] at this
    obtain ⟨x, _, hx⟩ := List.mem_map.1 this
    rw [← hx]; rfl
  · have : args.map V.others = l := by
      have h3 : args.map V.others = (args.map V.meaning.val).map (fun o => o.getD 0) := by
        rw [List.map_map]; rfl
      rw [h3, h1, List.map_map]
      exact List.map_id' _
    rw [this]; exact h2

theorem call_some {s : String} {args : List Ex} (h : ∀ a ∈ args, SeqFree a) (hs : ∀ a ∈ args, (V.meaning.val a).isSome) :
    V.meaning.val (.expr (.sym s :: args)) = arithValue V s (args.map V.others) := by
  rw [val_call V h, ← meaning_op_some]
  congr 1
  rw [List.map_map]
  refine List.map_congr_left ?_
  intro a ha
  obtain ⟨v, hv⟩ := Option.isSome_iff_exists.1 (hs a ha)
  simp [Interp.others, hv]

/-- The value in the sense of C09, where it is defined. -/
theorem value_of_val : ∀ {e : Ex}, Frag H e → SeqFree e → ∀ {v}, V.meaning.val e = some v → value V.others Complex.I e = v
  | _, .sym s, _, v, hv => by rw [value]; simp [Interp.others, hv]
  | _, .str s, _, v, hv => by rw [value]; simp [Interp.others, hv]
  | _, .int n, _, v, hv => by rw [val_int] at hv; cases hv; rw [value]
  | _, .rat hd, _, v, hv => by rw [val_rat V hd] at hv; cases hv; rw [value]
  | _, .cplx h1 h2 _, _, v, hv => by
    rw [(val_num V (e := .cplx _ _) ⟨h1, h2⟩ V.others).1] at hv; cases hv; rfl
  | _, .app (s := s) (args := args) hH h, hf, v, hv => by
    have hf' : ∀ a ∈ args, SeqFree a := fun a ha => hf.part (by simp [ha])
    obtain ⟨h1, h2⟩ := strict V hf' hv
    have h3 : args.map (value V.others Complex.I) = args.map V.others := by
      refine List.map_congr_left ?_
      intro a ha
      obtain ⟨w, hw⟩ := Option.isSome_iff_exists.1 (h1 a ha)
      rw [value_of_val (h a ha) (hf' a ha) hw]
      simp [Interp.others, hw]
    by_cases hp : s = "System`Plus"
    · subst hp
      have := value_plus V.others Complex.I args
      simp only [S] at this
      have e : "System`" ++ "Plus" = "System`Plus" := rfl
      rw [e] at this
      rw [this, h3]
      rw [arith_plus] at h2
      exact Option.some.inj h2
    · by_cases ht : s = "System`Times"
      · subst ht
        have := value_times V.others Complex.I args
        simp only [S] at this
        have e : "System`" ++ "Times" = "System`Times" := rfl
        rw [e] at this
        rw [this, h3]
        rw [arith_times] at h2
        exact Option.some.inj h2
      · rw [value, if_neg (by simpa [S] using hp), if_neg (by simpa [S] using ht)]
        simp [Interp.others, hv]
termination_by e => sizeOf e
decreasing_by
  have := List.sizeOf_lt_of_mem ha
  simp_wf
  omega

/-- In the fragment, without sequences. -/
def FragFree (H : String → Prop) (e : Ex) : Prop := Frag H e ∧ SeqFree e

theorem plain_open : OpenArith (FragFree H) where
  plus := fun _ h a ha => ⟨(frag_args h.1).2 a ha, h.2.part (by simp [ha])⟩
  times := fun _ h a ha => ⟨(frag_args h.1).2 a ha, h.2.part (by simp [ha])⟩
  exact := fun _ h => frag_exact h.1

/-- In the fragment, without sequences, with a value. -/
def Defined (V : Interp) (H : String → Prop) (e : Ex) : Prop := Frag H e ∧ SeqFree e ∧ (V.meaning.val e).isSome

theorem defined_open : OpenArith (Defined V H) where
  plus := fun as h a ha => by
    obtain ⟨v, hv⟩ := Option.isSome_iff_exists.1 h.2.2
    exact ⟨(frag_args h.1).2 a ha, h.2.1.part (by simp [ha]), (strict V (fun b hb => h.2.1.part (by simp [hb])) hv).1 a ha⟩
  times := fun as h a ha => by
    obtain ⟨v, hv⟩ := Option.isSome_iff_exists.1 h.2.2
    exact ⟨(frag_args h.1).2 a ha, h.2.1.part (by simp [ha]), (strict V (fun b hb => h.2.1.part (by simp [hb])) hv).1 a ha⟩
  exact := fun _ h => frag_exact h.1

theorem built_plain (hp : H "System`Plus") (ht : H "System`Times") : ∀ {e : Ex}, Built (FragFree H) e → ImagClean e → FragFree H e := by
  intro e hb
  induction hb with
  | num h => intro hi; exact ⟨frag_num h hi, seqFree_num h⟩
  | plus _ ih =>
    intro hi
    have := fun a ha => ih a ha (hi.part (by simp [ha]))
    exact ⟨.app hp (fun a ha => (this a ha).1), seqFree_app (by decide) (fun a ha => (this a ha).2)⟩
  | times _ ih =>
    intro hi
    have := fun a ha => ih a ha (hi.part (by simp [ha]))
    exact ⟨.app ht (fun a ha => (this a ha).1), seqFree_app (by decide) (fun a ha => (this a ha).2)⟩
  | other h => intro _; exact h

theorem built_defined : ∀ {e : Ex}, Built (Defined V H) e → SeqFree e ∧ (V.meaning.val e).isSome := by
  intro e hb
  induction hb with
  | num h => exact ⟨seqFree_num h, by rw [(val_num V h (fun _ => 0)).1]; rfl⟩
  | plus _ ih =>
    refine ⟨seqFree_app (by decide) (fun a ha => (ih a ha).1), ?_⟩
    have := call_some V (s := "System`Plus") (fun a ha => (ih a ha).1) (fun a ha => (ih a ha).2)
    simp only [S]
    erw [this, arith_plus]; rfl
  | times _ ih =>
    refine ⟨seqFree_app (by decide) (fun a ha => (ih a ha).1), ?_⟩
    have := call_some V (s := "System`Times") (fun a ha => (ih a ha).1) (fun a ha => (ih a ha).2)
    simp only [S]
    erw [this, arith_times]; rfl
  | other h => exact h.2

end
end Expreduce
