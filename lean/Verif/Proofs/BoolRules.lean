import Verif.Proofs.Truth
import Verif.Proofs.Blocks
import Verif.Proofs.ReplaceMeaning
import Verif.Proofs.ExpandRules

/-! The rules of `booleanSimplify` keep truth values. -/

namespace Expreduce
open Ex Shipped BoolRules Truth

/-- What is known about a match of a rule. -/
structure BoolMatch {W : Type} (V : TruthInterp W) (env : MEnv) (P U T : Ex → Prop) (ρ : String → Option Ex) : Prop where
  benv : BoolEnv env
  dist : Distinct env (· ∈ boolHeads) P U T
  vals : ∀ x v, ρ x = some v → T v
  names : ∀ s ∈ ["System`And", "System`Or", "System`Not", "System`True", "System`False", "Private`z"], ρ s = Option.none

section
variable {W : Type} {V : TruthInterp W} {env : MEnv} {P U T : Ex → Prop} {ρ : String → Option Ex}

theorem shape_many (d : Option Ex) (fl : Bool) (s x : String) : shape d fl s (.expr [S "Pattern", .sym x, .expr [S "BlankNullSequence"]]) =
    ⟨0, unlimited, .expr [S "Blank"], some x, false, S "Sequence", none⟩ := by
  simp [shape, S, testShape, namedShape, bodyShape]

theorem shape_flatAny (d : Option Ex) (s x : String) : shape d true s (any x) = ⟨1, unlimited, .expr [S "Blank"], some ("Private`" ++ x), false, .sym s, none⟩ := by
  simp [shape, any, var, S, testShape, namedShape, bodyShape]

/-- `x___` -/
theorem blk_many {s x : String} {cs : List Ex} (hU : ∀ c, U c → hasHead "System`Sequence" c = false)
    (h : Blk env U ρ s (.expr [S "Pattern", .sym x, .expr [S "BlankNullSequence"]]) cs) :
    ∃ w, ρ x = some w ∧ V.meaning.argVals w = V.meaning.vals cs := by
  have hn := h.name
  have he := h.elems
  rw [callShape, shape_many] at hn
  refine ⟨_, hn x rfl, ?_⟩
  unfold Shape.value
  split
  · simp [Meaning.argVals, S]
  · rename_i c
    split
    · simp [Meaning.vals]
    · simp [Meaning.argVals, S]
  · simp [Meaning.argVals, S]

/-- `x_` under `And` or `Or` -/
theorem blk_any {f u} {s x : String} {cs : List Ex} (hI : TruthInterp.Is V s f u) (hf : env.flat s = true ∧ env.oneIdentity s = true) (hs : s ≠ "System`Sequence")
    (hU : ∀ c, U c → hasHead "System`Sequence" c = false) (h : Blk env U ρ s (any x) cs) :
    ∃ w a, ρ ("Private`" ++ x) = some w ∧ V.meaning.argVals w = [a] ∧ V.meaning.op s (V.meaning.vals cs) = a := by
  have hn := h.name
  have hlo := h.lo
  have he := h.elems
  rw [callShape, hf.1, show (true && !false) = true from rfl, shape_flatAny] at hn hlo
  refine ⟨_, _, hn _ rfl, ?_, rfl⟩
  unfold Shape.value
  split
  · simp at hlo
  · rename_i c
    rw [hf.2]
    simp only [Bool.or_true, if_true, Meaning.vals, List.append_nil]
    rw [Meaning.argVals_one _ (hU c (he c (by simp)).1), hI.one]
  · simp [Meaning.argVals, hs]

/-- A call as the pattern of one argument. -/
theorem blk_call {f u} {s t : String} {ps cs : List Ex} (hB : BoolMatch V env P U T ρ) (ht : "System`" ++ t ∈ boolHeads)
    (hI : TruthInterp.Is V s f u) (hf : env.flat s = true) (hown : ∀ p ∈ ps, noOwnDefault p = true)
    (hP : ∀ q ∈ subexprs (call t ps), P q) (h : Blk env U ρ s (call t ps) cs) :
    ∃ Bs, List.Forall₂ (Blk env U ρ ("System`" ++ t)) ps Bs ∧
      V.meaning.op s (V.meaning.vals cs) = V.meaning.op ("System`" ++ t) (V.meaning.vals Bs.flatten) := by
  have hsp : ("System`" ++ t) ∉ specialHeads ∧ ("System`" ++ t) ≠ "System`Sequence" := by
    revert ht; generalize "System`" ++ t = k; intro hk; revert k; decide
  have hlo := h.lo
  have hhi := h.hi
  have he := h.elems
  rw [callShape, call, S, shape_plain hsp.1] at hlo hhi he
  obtain ⟨c, rfl⟩ : ∃ c, cs = [c] := by
    match cs, hlo, hhi with
    | [], h, _ => simp at h
    | [c], _, _ => exact ⟨c, rfl⟩
    | _ :: _ :: _, _, h => simp at h; omega
  obtain ⟨hUc, hmc⟩ := he c (by simp)
  obtain ⟨Bs, hBs, hv⟩ := blocks_inv (M := V.meaning) (fun s hs => TruthInterp.lawful hB.benv hs) hB.dist hB.vals ht hsp.1 hsp.2
    (hB.benv.plain _ ht).1 hown hP hUc hmc
  refine ⟨Bs, hBs, ?_⟩
  rw [Meaning.vals, Meaning.vals, hv, List.append_nil, hI.one]

/-- `x_` in `!x_` -/
theorem blk_notAny {x : String} {cs : List Ex} (hB : BoolMatch V env P U T ρ) (h : Blk env U ρ "System`Not" (any x) cs) :
    ∃ w a, ρ ("Private`" ++ x) = some w ∧ V.meaning.argVals w = [a] ∧ V.meaning.vals cs = [a] := by
  have hn := h.name
  have hlo := h.lo
  have hhi := h.hi
  have he := h.elems
  rw [callShape, hB.benv.not.1, Bool.false_and, shape_any] at hn hlo hhi he
  obtain ⟨c, rfl⟩ : ∃ c, cs = [c] := by
    match cs, hlo, hhi with
    | [], h, _ => simp at h
    | [c], _, _ => exact ⟨c, rfl⟩
    | _ :: _ :: _, _, h => simp at h; omega
  have hq := hB.dist.noSeq c (he c (by simp)).1
  refine ⟨c, V.meaning.val c, by simpa [Shape.value] using hn _ rfl, Meaning.argVals_one _ hq, ?_⟩
  rw [Meaning.vals, Meaning.vals, Meaning.argVals_one _ hq, List.append_nil]

/-- `!x_` -/
theorem blk_not {f u} {s x : String} {cs : List Ex} (hB : BoolMatch V env P U T ρ) (hI : TruthInterp.Is V s f u) (hf : env.flat s = true)
    (hP : ∀ q ∈ subexprs (notOf (any x)), P q) (h : Blk env U ρ s (notOf (any x)) cs) :
    ∃ w a, ρ ("Private`" ++ x) = some w ∧ V.meaning.argVals w = [a] ∧ V.meaning.op s (V.meaning.vals cs) = not1 a := by
  obtain ⟨Bs, hBs, hv⟩ := blk_call hB (t := "Not") (by decide) hI hf (by simp [noOwnDefault, any, S]) hP h
  cases hBs with
  | cons h1 h2 =>
  cases h2
  obtain ⟨w, a, h3, h4, h5⟩ := blk_notAny hB h1
  refine ⟨w, a, h3, h4, ?_⟩
  rw [hv, List.flatten_cons, List.flatten_nil, List.append_nil, h5]
  exact TruthInterp.op_not a

/-- `!z` for a symbol `z` -/
theorem blk_notSym {f u} {s x : String} {cs : List Ex} (hB : BoolMatch V env P U T ρ) (hI : TruthInterp.Is V s f u) (hf : env.flat s = true)
    (hP : ∀ q ∈ subexprs (notOf (var x)), P q) (h : Blk env U ρ s (notOf (var x)) cs) :
    V.meaning.op s (V.meaning.vals cs) = not1 (V.meaning.atom (var x)) := by
  obtain ⟨Bs, hBs, hv⟩ := blk_call hB (t := "Not") (by decide) hI hf (by simp [noOwnDefault, var]) hP h
  cases hBs with
  | @cons _ ds _ _ h1 h2 =>
  cases h2
  have hlo := h1.lo
  have hhi := h1.hi
  have he := h1.elems
  have hsh : callShape env false ("System`" ++ "Not") (var x) = ⟨1, 1, var x, none, false, S "Sequence", none⟩ := by
    simp [callShape, shape, var, testShape, namedShape, bodyShape]
  rw [hsh] at hlo hhi he
  obtain ⟨c, rfl⟩ : ∃ c, ds = [c] := by
    match ds, hlo, hhi with
    | [], h, _ => simp at h
    | [c], _, _ => exact ⟨c, rfl⟩
    | _ :: _ :: _, _, h => simp at h; omega
  have hc : c = var x := matches_sym hB.dist (he c (by simp)).1 (hP _ (mem_subexprs_part (p := var x) (by simp) (subexprs_self _))) (he c (by simp)).2
  subst hc
  rw [hv]
  simp only [List.flatten_cons, List.flatten_nil, List.append_nil, Meaning.vals, var, Meaning.argVals]
  exact TruthInterp.op_not _

/-- The pattern `!(a[___, x_, ___] | x_)`. -/
theorem blk_notAlt {f g u u'} {s t x : String} {cs : List Ex} (hB : BoolMatch V env P U T ρ) (ht : "System`" ++ t ∈ ["System`And", "System`Or"])
    (hI : TruthInterp.Is V s f u) (hI' : TruthInterp.Is V ("System`" ++ t) g u') (hf : env.flat s = true)
    {w : Ex} {a : Truth W} (hw : ρ ("Private`" ++ x) = some w) (ha : V.meaning.argVals w = [a])
    (hP : ∀ q ∈ subexprs (notOf (call "Alternatives" [call t [skip, any x, skip], any x])), P q)
    (h : Blk env U ρ s (notOf (call "Alternatives" [call t [skip, any x, skip], any x])) cs) :
    V.meaning.op s (V.meaning.vals cs) = not1 a ∨ ∃ q, V.meaning.op s (V.meaning.vals cs) = not1 (g q a) := by
  obtain ⟨Bs, hBs, hv⟩ := blk_call hB (t := "Not") (by decide) hI hf (by simp [noOwnDefault, call, S]) hP h
  cases hBs with
  | @cons _ ds _ _ h1 h2 =>
  cases h2
  have hlo := h1.lo
  have hhi := h1.hi
  have he := h1.elems
  have hsh : callShape env false ("System`" ++ "Not") (call "Alternatives" [call t [skip, any x, skip], any x]) =
      ⟨1, 1, call "Alternatives" [call t [skip, any x, skip], any x], none, false, S "Sequence", none⟩ := by
    simp [callShape, shape, call, S, testShape, namedShape, bodyShape]
  rw [hsh] at hlo hhi he
  obtain ⟨c, rfl⟩ : ∃ c, ds = [c] := by
    match ds, hlo, hhi with
    | [], h, _ => simp at h
    | [c], _, _ => exact ⟨c, rfl⟩
    | _ :: _ :: _, _, h => simp at h; omega
  obtain ⟨hUc, hmc⟩ := he c (by simp)
  have hPalt : ∀ q ∈ subexprs (call "Alternatives" [call t [skip, any x, skip], any x]), P q := fun q hq => hP q (by
    rw [notOf, call]; exact mem_subexprs_part (by simp) hq)
  have hP1 : ∀ q ∈ subexprs (call t [skip, any x, skip]), P q := fun q hq => hPalt q (mem_subexprs_part (by simp) hq)
  have hP2 : ∀ q ∈ subexprs (any x), P q := fun q hq => hPalt q (mem_subexprs_part (by simp) hq)
  have hv' : V.meaning.op s (V.meaning.vals cs) = not1 (V.meaning.val c) := by
    rw [hv, List.flatten_cons, List.flatten_nil, List.append_nil, Meaning.vals, Meaning.vals, Meaning.argVals_one _ (hB.dist.noSeq c hUc), List.append_nil]
    exact TruthInterp.op_not _
  have hcases : Matches env ρ (call t [skip, any x, skip]) c ∨ Matches env ρ (any x) c := by
    generalize hb : call "Alternatives" [call t [skip, any x, skip], any x] = b at hmc
    rw [call, S] at hb
    cases hmc with
    | alt hp hm =>
      simp only [S, Ex.expr.injEq, List.cons.injEq, true_and] at hb
      rw [← hb] at hp
      simp only [List.mem_cons, List.not_mem_nil, or_false] at hp
      rcases hp with rfl | rfl
      · exact .inl hm
      · exact .inr hm
    | lit h => subst hb; cases h
    | blank h => simp only [Ex.expr.injEq, List.cons.injEq, Ex.sym.injEq] at hb; obtain ⟨rfl, _⟩ := hb; exact absurd h (by decide)
    | named h => simp only [S, Ex.expr.injEq, List.cons.injEq, Ex.sym.injEq] at hb; exact absurd hb.1 (by decide)
    | same A h => simp only [Ex.expr.injEq, List.cons.injEq, Ex.sym.injEq] at hb; obtain ⟨rfl, _⟩ := hb; exact absurd h (by decide)
    | diff A h => simp only [Ex.expr.injEq] at hb; subst hb; exact absurd (h "System`Alternatives" rfl) (by decide)
    | clash _ _ h => simp only [Ex.expr.injEq] at hb; subst hb; exact absurd (h "System`Alternatives" rfl) (by decide)
    | assumed h => simp only [Ex.expr.injEq, List.cons.injEq, Ex.sym.injEq] at hb; obtain ⟨rfl, _⟩ := hb; exact absurd h (by decide)
    | verb => simp at hb
    | verbClash => simp at hb
    | test => simp only [S, Ex.expr.injEq, List.cons.injEq, Ex.sym.injEq] at hb; exact absurd hb.1 (by decide)
    | hold => simp only [S, Ex.expr.injEq, List.cons.injEq, Ex.sym.injEq] at hb; exact absurd hb.1 (by decide)
  rcases hcases with hm | hm
  · right
    have ht' : "System`" ++ t ∈ boolHeads := by
      revert ht; generalize "System`" ++ t = k; intro hk; revert k; decide
    have hsp : ("System`" ++ t) ∉ specialHeads ∧ ("System`" ++ t) ≠ "System`Sequence" := by
      revert ht; generalize "System`" ++ t = k; intro hk; revert k; decide
    obtain ⟨Bs, hBs, hval⟩ := blocks_inv (M := V.meaning) (fun s hs => TruthInterp.lawful hB.benv hs) hB.dist hB.vals ht' hsp.1 hsp.2
      (hB.benv.plain _ ht').1 (by simp [noOwnDefault, skip, any, S]) hP1 hUc hm
    cases hBs with
    | @cons _ c1 _ _ b1 hr =>
    cases hr with
    | @cons _ c2 _ _ b2 hr =>
    cases hr with
    | @cons _ c3 _ _ b3 hr =>
    cases hr
    obtain ⟨w', a', hw', ha', h2⟩ := blk_any hI' (hB.benv.flat _ ht) hsp.2 hB.dist.noSeq b2
    rw [hw] at hw'
    cases hw'
    rw [ha] at ha'
    cases ha'
    rw [Meaning.argVals_one _ (hB.dist.noSeq c hUc)] at hval
    simp only [List.cons.injEq, and_true] at hval
    refine ⟨g (V.meaning.op ("System`" ++ t) (V.meaning.vals c1)) (V.meaning.op ("System`" ++ t) (V.meaning.vals c3)), ?_⟩
    rw [hv', hval]
    simp only [List.flatten_cons, List.flatten_nil, List.append_nil, Meaning.vals_append, hI'.append, h2]
    congr 1
    rw [hI'.op.comm a, ← hI'.op.assoc]
  · left
    rw [hv']
    congr 1
    have : w = c := by
      rw [any] at hm
      generalize hb : Ex.expr [S "Pattern", var x, .expr [S "Blank"]] = b at hm
      cases hm with
      | @named k args y v _ h1 h2 h3 h4 =>
        simp only [var, Ex.expr.injEq, List.cons.injEq, Ex.sym.injEq, and_true, true_and] at hb
        obtain ⟨rfl, _⟩ := hb
        rw [hw] at h3
        cases h3
        exact hB.dist.inj _ _ (hB.vals _ _ hw) (hB.dist.whole _ hUc) h4
      | lit h => subst hb; cases h
      | blank h => simp only [S, Ex.expr.injEq, List.cons.injEq, Ex.sym.injEq] at hb; obtain ⟨rfl, _⟩ := hb; exact absurd h (by decide)
      | same A h => simp only [S, Ex.expr.injEq, List.cons.injEq, Ex.sym.injEq] at hb; obtain ⟨rfl, _⟩ := hb; exact absurd h (by decide)
      | diff A h => simp only [S, Ex.expr.injEq] at hb; subst hb; exact absurd (h "System`Pattern" rfl) (by decide)
      | clash _ _ h => simp only [S, Ex.expr.injEq] at hb; subst hb; exact absurd (h "System`Pattern" rfl) (by decide)
      | assumed h => simp only [S, Ex.expr.injEq, List.cons.injEq, Ex.sym.injEq] at hb; obtain ⟨rfl, _⟩ := hb; exact absurd h (by decide)
      | verb => simp [S] at hb
      | verbClash => simp [S] at hb
      | test => simp only [S, Ex.expr.injEq, List.cons.injEq, Ex.sym.injEq] at hb; exact absurd hb.1 (by decide)
      | hold => simp only [S, Ex.expr.injEq, List.cons.injEq, Ex.sym.injEq] at hb; exact absurd hb.1 (by decide)
      | alt => simp only [S, Ex.expr.injEq, List.cons.injEq, Ex.sym.injEq] at hb; exact absurd hb.1 (by decide)
    subst this
    rw [Meaning.argVals_one _ (hB.dist.noSeq _ hUc)] at ha
    simpa using ha

end

end Expreduce
