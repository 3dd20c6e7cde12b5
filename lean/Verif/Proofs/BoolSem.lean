import Verif.Proofs.BoolRules

/-! The rules of `booleanSimplify`, one by one. -/

namespace Expreduce
open Ex Shipped BoolRules Truth

/-- For every match of the arguments of the rule `h[ps] :> rhs`, cut into blocks, the right side has the value of the left side. -/
def RuleSem {W : Type} (V : TruthInterp W) (env : MEnv) (h : String) (ps : List Ex) (rhs : Ex) : Prop :=
  ∀ P U T ρ, BoolMatch V env P U T ρ → (∀ p ∈ ps, ∀ q ∈ subexprs p, P q) → ∀ Bs, List.Forall₂ (Blk env U ρ h) ps Bs →
    ∃ v, V.meaning.argVals (subst ρ rhs) = [v] ∧ Le (V.meaning.op h (V.meaning.vals Bs.flatten)) v

section
variable {W : Type} {V : TruthInterp W} {env : MEnv}

theorem sub_arg {h : Ex} {ps : List Ex} {p : Ex} {P : Ex → Prop} (hP : ∀ q ∈ subexprs (.expr (h :: ps)), P q) (hp : p ∈ ps) : ∀ q ∈ subexprs p, P q :=
  fun q hq => hP q (mem_subexprs_part (by simp [hp]) hq)

/-- One of the two pairs of functions. -/
structure Pair (V : TruthInterp W) (o a : String) (f g : Truth W → Truth W → Truth W) (u u' : Truth W) (r : Bool) : Prop where
  is : TruthInterp.Is V ("System`" ++ o) f u
  is' : TruthInterp.Is V ("System`" ++ a) g u'
  dual : Dual f g r
  mem : "System`" ++ o ∈ ["System`And", "System`Or"]
  mem' : "System`" ++ a ∈ ["System`And", "System`Or"]

theorem pair_or : Pair V "Or" "And" or2 and2 (.bool false) (.bool true) true :=
  ⟨TruthInterp.is_or, TruthInterp.is_and, or_and, by decide, by decide⟩
theorem pair_and : Pair V "And" "Or" and2 or2 (.bool true) (.bool false) false :=
  ⟨TruthInterp.is_and, TruthInterp.is_or, and_or, by decide, by decide⟩

theorem ne_seq {s : String} (h : s ∈ ["System`And", "System`Or"]) : s ≠ "System`Sequence" := by revert s; decide
theorem mem_heads {s : String} (h : s ∈ ["System`And", "System`Or"]) : s ∈ boolHeads := by revert s; decide
theorem none_of {P U T : Ex → Prop} {ρ : String → Option Ex} (hB : BoolMatch V env P U T ρ) {s : String} (h : s ∈ ["System`And", "System`Or"]) : ρ s = Option.none :=
  hB.names s (by revert s; decide)

variable {o a : String} {f g : Truth W → Truth W → Truth W} {u u' : Truth W} {r : Bool}

/-- The value of a call whose arguments are names. -/
theorem vals_subst_cons {ρ : String → Option Ex} (e : Ex) (es : List Ex) : V.meaning.vals (substL ρ (e :: es)) = V.meaning.argVals (subst ρ e) ++ V.meaning.vals (substL ρ es) := by
  rw [substL, Meaning.vals]

theorem argVals_subst_call {ρ : String → Option Ex} {s : String} (hs : ρ s = Option.none) (hq : s ≠ "System`Sequence") (es : List Ex) :
    V.meaning.argVals (subst ρ (.expr (.sym s :: es))) = [V.meaning.op s (V.meaning.vals (substL ρ es))] := by
  rw [subst, substL, subst, hs]
  simp [Meaning.argVals, hq]

theorem argVals_subst_var {ρ : String → Option Ex} {x : String} {w : Ex} (h : ρ ("Private`" ++ x) = some w) : subst ρ (var x) = w := by
  rw [var, subst, h]

theorem noOwn_many (x : String) : noOwnDefault (many x) = true := by simp [noOwnDefault, many, S]
theorem noOwn_any (x : String) : noOwnDefault (any x) = true := by simp [noOwnDefault, any, S]
theorem noOwn_call {s : String} (h : "System`" ++ s ∈ boolHeads) (ps : List Ex) : noOwnDefault (call s ps) = true := by
  have : "System`" ++ s ≠ "System`Optional" := by revert h; generalize "System`" ++ s = k; intro hk; revert k; decide
  rcases ps with _ | ⟨p, _ | ⟨q, ps⟩⟩ <;> simp [noOwnDefault, call, S, this]

theorem inner_vals {P U T : Ex → Prop} {ρ : String → Option Ex} (hB : BoolMatch V env P U T ρ) {s : String} (h : "System`" ++ s ∈ ["System`And", "System`Or"]) (es : List Ex) :
    V.meaning.argVals (subst ρ (call s es)) = [V.meaning.op ("System`" ++ s) (V.meaning.vals (substL ρ es))] :=
  argVals_subst_call (none_of hB h) (ne_seq h) es

/-- `Or[x1___, a_, x2___, a_, x3___]` -/
theorem twice_sem (hp : Pair V o a f g u u' r) :
    RuleSem V env ("System`" ++ o) [many "x1", any "a", many "x2", any "a", many "x3"] (twice o).2 := by
  intro P U T ρ hB hP Bs hBs
  have hf := hB.benv.flat _ hp.mem
  have hf' := hB.benv.flat _ hp.mem'
  cases hBs with | @cons _ c1 _ _ bc1 hr =>
  cases hr with | @cons _ c2 _ _ bc2 hr =>
  cases hr with | @cons _ c3 _ _ bc3 hr =>
  cases hr with | @cons _ c4 _ _ bc4 hr =>
  cases hr with | @cons _ c5 _ _ bc5 hr =>
  cases hr
  obtain ⟨wc1, hc1, ec1⟩ := blk_many (V := V) hB.dist.noSeq bc1
  obtain ⟨wc2, xc2, hc2, ec2, gc2⟩ := blk_any hp.is hf (ne_seq hp.mem) hB.dist.noSeq bc2
  obtain ⟨wc3, hc3, ec3⟩ := blk_many (V := V) hB.dist.noSeq bc3
  obtain ⟨wc4, xc4, hc4, ec4, gc4⟩ := blk_any hp.is hf (ne_seq hp.mem) hB.dist.noSeq bc4
  obtain ⟨wc5, hc5, ec5⟩ := blk_many (V := V) hB.dist.noSeq bc5
  rw [hc2] at hc4; cases hc4
  rw [ec2] at ec4; cases ec4
  refine ⟨_, argVals_subst_call (none_of hB hp.mem) (ne_seq hp.mem) _, ?_⟩
  simp only [vals_subst_cons, argVals_subst_var hc1, argVals_subst_var hc2, argVals_subst_var hc3, argVals_subst_var hc5, ec1, ec2, ec3, ec5, substL, Meaning.vals, List.flatten_cons, List.flatten_nil, List.append_nil, Meaning.vals_append, hp.is.append, hp.is'.append, gc2, gc4, hp.is.one, hp.is'.one]
  haveI : Std.Associative f := ⟨hp.is.op.assoc⟩
  haveI : Std.Commutative f := ⟨hp.is.op.comm⟩
  haveI : Std.Associative g := ⟨hp.is'.op.assoc⟩
  haveI : Std.Commutative g := ⟨hp.is'.op.comm⟩
  generalize V.meaning.op ("System`" ++ o) (V.meaning.vals c1) = yc1
  generalize V.meaning.op ("System`" ++ o) (V.meaning.vals c3) = yc3
  generalize V.meaning.op ("System`" ++ o) (V.meaning.vals c5) = yc5
  have : f yc1 (f xc2 (f yc3 (f xc2 yc5))) = f (f xc2 xc2) (f yc1 (f yc3 yc5)) := by ac_rfl
  rw [this]
  exact (hp.is.op.mono (hp.dual.idem xc2) (.refl _)).trans_eq (by ac_rfl)

/-- `absorbLeft` -/
theorem absorbLeft_sem (hp : Pair V o a f g u u' r) :
    RuleSem V env ("System`" ++ o) [many "x1", any "a", many "x2", call a [many "x3", any "a", many "x4"], many "x5"] (absorbLeft o a).2 := by
  intro P U T ρ hB hP Bs hBs
  have hf := hB.benv.flat _ hp.mem
  have hf' := hB.benv.flat _ hp.mem'
  cases hBs with | @cons _ c1 _ _ bc1 hr =>
  cases hr with | @cons _ c2 _ _ bc2 hr =>
  cases hr with | @cons _ c3 _ _ bc3 hr =>
  cases hr with | @cons _ c4 _ _ bc4 hr =>
  cases hr with | @cons _ c5 _ _ bc5 hr =>
  cases hr
  obtain ⟨wc1, hc1, ec1⟩ := blk_many (V := V) hB.dist.noSeq bc1
  obtain ⟨wc3, hc3, ec3⟩ := blk_many (V := V) hB.dist.noSeq bc3
  obtain ⟨wc5, hc5, ec5⟩ := blk_many (V := V) hB.dist.noSeq bc5
  obtain ⟨wc2, xc2, hc2, ec2, gc2⟩ := blk_any hp.is hf (ne_seq hp.mem) hB.dist.noSeq bc2
  have hsub := hP (call a [many "x3", any "a", many "x4"]) (by simp)
  obtain ⟨Bs', hBs', gc4⟩ := blk_call hB (mem_heads hp.mem') hp.is hf.1 (by simp [noOwn_many, noOwn_any]) hsub bc4
  cases hBs' with | @cons _ d1 _ _ bd1 hr =>
  cases hr with | @cons _ d2 _ _ bd2 hr =>
  cases hr with | @cons _ d3 _ _ bd3 hr =>
  cases hr
  obtain ⟨wd1, hd1, ed1⟩ := blk_many (V := V) hB.dist.noSeq bd1
  obtain ⟨wd3, hd3, ed3⟩ := blk_many (V := V) hB.dist.noSeq bd3
  obtain ⟨wd2, xd2, hd2, ed2, gd2⟩ := blk_any hp.is' hf' (ne_seq hp.mem') hB.dist.noSeq bd2
  rw [hc2] at hd2; cases hd2
  rw [ec2] at ed2; cases ed2
  refine ⟨_, argVals_subst_call (none_of hB hp.mem) (ne_seq hp.mem) _, ?_⟩
  simp only [vals_subst_cons, argVals_subst_var hc1, argVals_subst_var hc3, argVals_subst_var hc5, argVals_subst_var hc2, ec1, ec3, ec5, ec2, substL, Meaning.vals, List.flatten_cons, List.flatten_nil, List.append_nil, Meaning.vals_append, hp.is.append, hp.is'.append, gc2, gc4, gd2, hp.is.one, hp.is'.one]
  haveI : Std.Associative f := ⟨hp.is.op.assoc⟩
  haveI : Std.Commutative f := ⟨hp.is.op.comm⟩
  haveI : Std.Associative g := ⟨hp.is'.op.assoc⟩
  haveI : Std.Commutative g := ⟨hp.is'.op.comm⟩
  generalize V.meaning.op ("System`" ++ o) (V.meaning.vals c1) = yc1
  generalize V.meaning.op ("System`" ++ o) (V.meaning.vals c3) = yc3
  generalize V.meaning.op ("System`" ++ o) (V.meaning.vals c5) = yc5
  generalize V.meaning.op ("System`" ++ a) (V.meaning.vals d1) = zd1
  generalize V.meaning.op ("System`" ++ a) (V.meaning.vals d3) = zd3
  have key := hp.dual.absorb xc2 (g zd1 zd3)
  have e : g zd1 (g xc2 zd3) = g (g zd1 zd3) xc2 := by ac_rfl
  rw [e]
  generalize g (g zd1 zd3) xc2 = gg at *
  have : f yc1 (f xc2 (f yc3 (f gg yc5))) = f (f xc2 gg) (f yc1 (f yc3 yc5)) := by ac_rfl
  rw [this]
  exact (hp.is.op.mono key (.refl _)).trans_eq (by ac_rfl)

/-- `dropLeft` -/
theorem dropLeft_sem (hp : Pair V o a f g u u' r) :
    RuleSem V env ("System`" ++ o) [many "x1", any "a", many "x2", call a [many "x3", notOf (any "a"), many "x4"], many "x5"] (dropLeft o a).2 := by
  intro P U T ρ hB hP Bs hBs
  have hf := hB.benv.flat _ hp.mem
  have hf' := hB.benv.flat _ hp.mem'
  cases hBs with | @cons _ c1 _ _ bc1 hr =>
  cases hr with | @cons _ c2 _ _ bc2 hr =>
  cases hr with | @cons _ c3 _ _ bc3 hr =>
  cases hr with | @cons _ c4 _ _ bc4 hr =>
  cases hr with | @cons _ c5 _ _ bc5 hr =>
  cases hr
  obtain ⟨wc1, hc1, ec1⟩ := blk_many (V := V) hB.dist.noSeq bc1
  obtain ⟨wc3, hc3, ec3⟩ := blk_many (V := V) hB.dist.noSeq bc3
  obtain ⟨wc5, hc5, ec5⟩ := blk_many (V := V) hB.dist.noSeq bc5
  obtain ⟨wc2, xc2, hc2, ec2, gc2⟩ := blk_any hp.is hf (ne_seq hp.mem) hB.dist.noSeq bc2
  have hsub := hP (call a [many "x3", notOf (any "a"), many "x4"]) (by simp)
  obtain ⟨Bs', hBs', gc4⟩ := blk_call hB (mem_heads hp.mem') hp.is hf.1 (by simp [noOwn_many, show noOwnDefault (notOf (any "a")) = true from noOwn_call (by decide) _]) hsub bc4
  cases hBs' with | @cons _ d1 _ _ bd1 hr =>
  cases hr with | @cons _ d2 _ _ bd2 hr =>
  cases hr with | @cons _ d3 _ _ bd3 hr =>
  cases hr
  obtain ⟨wd1, hd1, ed1⟩ := blk_many (V := V) hB.dist.noSeq bd1
  obtain ⟨wd3, hd3, ed3⟩ := blk_many (V := V) hB.dist.noSeq bd3
  obtain ⟨wd2, xd2, hd2, ed2, gd2⟩ := blk_not hB hp.is' hf'.1 (sub_arg hsub (by simp)) bd2
  rw [hc2] at hd2; cases hd2
  rw [ec2] at ed2; cases ed2
  refine ⟨_, argVals_subst_call (none_of hB hp.mem) (ne_seq hp.mem) _, ?_⟩
  simp only [vals_subst_cons, argVals_subst_var hc1, argVals_subst_var hc3, argVals_subst_var hc5, argVals_subst_var hc2, argVals_subst_var hd1, argVals_subst_var hd3, ec1, ec3, ec5, ec2, ed1, ed3, substL, Meaning.vals, List.flatten_cons, List.flatten_nil, List.append_nil, Meaning.vals_append, hp.is.append, hp.is'.append, gc2, gc4, gd2, hp.is.one, hp.is'.one, inner_vals hB hp.mem']
  haveI : Std.Associative f := ⟨hp.is.op.assoc⟩
  haveI : Std.Commutative f := ⟨hp.is.op.comm⟩
  haveI : Std.Associative g := ⟨hp.is'.op.assoc⟩
  haveI : Std.Commutative g := ⟨hp.is'.op.comm⟩
  generalize V.meaning.op ("System`" ++ o) (V.meaning.vals c1) = yc1
  generalize V.meaning.op ("System`" ++ o) (V.meaning.vals c3) = yc3
  generalize V.meaning.op ("System`" ++ o) (V.meaning.vals c5) = yc5
  generalize V.meaning.op ("System`" ++ a) (V.meaning.vals d1) = zd1
  generalize V.meaning.op ("System`" ++ a) (V.meaning.vals d3) = zd3
  have key := hp.dual.drop xc2 (g zd1 zd3)
  have e : g zd1 (g (not1 xc2) zd3) = g (g zd1 zd3) (not1 xc2) := by ac_rfl
  rw [e]
  generalize g (g zd1 zd3) (not1 xc2) = gg at *
  generalize g zd1 zd3 = gq at *
  have : f yc1 (f xc2 (f yc3 (f gg yc5))) = f (f xc2 gg) (f yc1 (f yc3 yc5)) := by ac_rfl
  rw [this]
  exact (hp.is.op.mono key (.refl _)).trans_eq (by ac_rfl)

/-- `absorbRight` -/
theorem absorbRight_sem (hp : Pair V o a f g u u' r) :
    RuleSem V env ("System`" ++ o) [many "x1", call a [many "x2", any "a", many "x3"], many "x4", any "a", many "x5"] (absorbRight o a).2 := by
  intro P U T ρ hB hP Bs hBs
  have hf := hB.benv.flat _ hp.mem
  have hf' := hB.benv.flat _ hp.mem'
  cases hBs with | @cons _ c1 _ _ bc1 hr =>
  cases hr with | @cons _ c2 _ _ bc2 hr =>
  cases hr with | @cons _ c3 _ _ bc3 hr =>
  cases hr with | @cons _ c4 _ _ bc4 hr =>
  cases hr with | @cons _ c5 _ _ bc5 hr =>
  cases hr
  obtain ⟨wc1, hc1, ec1⟩ := blk_many (V := V) hB.dist.noSeq bc1
  obtain ⟨wc3, hc3, ec3⟩ := blk_many (V := V) hB.dist.noSeq bc3
  obtain ⟨wc5, hc5, ec5⟩ := blk_many (V := V) hB.dist.noSeq bc5
  obtain ⟨wc4, xc4, hc4, ec4, gc4⟩ := blk_any hp.is hf (ne_seq hp.mem) hB.dist.noSeq bc4
  have hsub := hP (call a [many "x2", any "a", many "x3"]) (by simp)
  obtain ⟨Bs', hBs', gc2⟩ := blk_call hB (mem_heads hp.mem') hp.is hf.1 (by simp [noOwn_many, noOwn_any]) hsub bc2
  cases hBs' with | @cons _ d1 _ _ bd1 hr =>
  cases hr with | @cons _ d2 _ _ bd2 hr =>
  cases hr with | @cons _ d3 _ _ bd3 hr =>
  cases hr
  obtain ⟨wd1, hd1, ed1⟩ := blk_many (V := V) hB.dist.noSeq bd1
  obtain ⟨wd3, hd3, ed3⟩ := blk_many (V := V) hB.dist.noSeq bd3
  obtain ⟨wd2, xd2, hd2, ed2, gd2⟩ := blk_any hp.is' hf' (ne_seq hp.mem') hB.dist.noSeq bd2
  rw [hc4] at hd2; cases hd2
  rw [ec4] at ed2; cases ed2
  refine ⟨_, argVals_subst_call (none_of hB hp.mem) (ne_seq hp.mem) _, ?_⟩
  simp only [vals_subst_cons, argVals_subst_var hc1, argVals_subst_var hc3, argVals_subst_var hc5, argVals_subst_var hc4, ec1, ec3, ec5, ec4, substL, Meaning.vals, List.flatten_cons, List.flatten_nil, List.append_nil, Meaning.vals_append, hp.is.append, hp.is'.append, gc4, gc2, gd2, hp.is.one, hp.is'.one]
  haveI : Std.Associative f := ⟨hp.is.op.assoc⟩
  haveI : Std.Commutative f := ⟨hp.is.op.comm⟩
  haveI : Std.Associative g := ⟨hp.is'.op.assoc⟩
  haveI : Std.Commutative g := ⟨hp.is'.op.comm⟩
  generalize V.meaning.op ("System`" ++ o) (V.meaning.vals c1) = yc1
  generalize V.meaning.op ("System`" ++ o) (V.meaning.vals c3) = yc3
  generalize V.meaning.op ("System`" ++ o) (V.meaning.vals c5) = yc5
  generalize V.meaning.op ("System`" ++ a) (V.meaning.vals d1) = zd1
  generalize V.meaning.op ("System`" ++ a) (V.meaning.vals d3) = zd3
  have key := hp.dual.absorb xc4 (g zd1 zd3)
  have e : g zd1 (g xc4 zd3) = g (g zd1 zd3) xc4 := by ac_rfl
  rw [e]
  generalize g (g zd1 zd3) xc4 = gg at *
  have : f yc1 (f gg (f yc3 (f xc4 yc5))) = f (f xc4 gg) (f yc1 (f yc3 yc5)) := by ac_rfl
  rw [this]
  exact (hp.is.op.mono key (.refl _)).trans_eq (by ac_rfl)

/-- `dropRight` -/
theorem dropRight_sem (hp : Pair V o a f g u u' r) :
    RuleSem V env ("System`" ++ o) [many "x1", call a [many "x2", notOf (any "a"), many "x3"], many "x4", any "a", many "x5"] (dropRight o a).2 := by
  intro P U T ρ hB hP Bs hBs
  have hf := hB.benv.flat _ hp.mem
  have hf' := hB.benv.flat _ hp.mem'
  cases hBs with | @cons _ c1 _ _ bc1 hr =>
  cases hr with | @cons _ c2 _ _ bc2 hr =>
  cases hr with | @cons _ c3 _ _ bc3 hr =>
  cases hr with | @cons _ c4 _ _ bc4 hr =>
  cases hr with | @cons _ c5 _ _ bc5 hr =>
  cases hr
  obtain ⟨wc1, hc1, ec1⟩ := blk_many (V := V) hB.dist.noSeq bc1
  obtain ⟨wc3, hc3, ec3⟩ := blk_many (V := V) hB.dist.noSeq bc3
  obtain ⟨wc5, hc5, ec5⟩ := blk_many (V := V) hB.dist.noSeq bc5
  obtain ⟨wc4, xc4, hc4, ec4, gc4⟩ := blk_any hp.is hf (ne_seq hp.mem) hB.dist.noSeq bc4
  have hsub := hP (call a [many "x2", notOf (any "a"), many "x3"]) (by simp)
  obtain ⟨Bs', hBs', gc2⟩ := blk_call hB (mem_heads hp.mem') hp.is hf.1 (by simp [noOwn_many, show noOwnDefault (notOf (any "a")) = true from noOwn_call (by decide) _]) hsub bc2
  cases hBs' with | @cons _ d1 _ _ bd1 hr =>
  cases hr with | @cons _ d2 _ _ bd2 hr =>
  cases hr with | @cons _ d3 _ _ bd3 hr =>
  cases hr
  obtain ⟨wd1, hd1, ed1⟩ := blk_many (V := V) hB.dist.noSeq bd1
  obtain ⟨wd3, hd3, ed3⟩ := blk_many (V := V) hB.dist.noSeq bd3
  obtain ⟨wd2, xd2, hd2, ed2, gd2⟩ := blk_not hB hp.is' hf'.1 (sub_arg hsub (by simp)) bd2
  rw [hc4] at hd2; cases hd2
  rw [ec4] at ed2; cases ed2
  refine ⟨_, argVals_subst_call (none_of hB hp.mem) (ne_seq hp.mem) _, ?_⟩
  simp only [vals_subst_cons, argVals_subst_var hc1, argVals_subst_var hc3, argVals_subst_var hc5, argVals_subst_var hc4, argVals_subst_var hd1, argVals_subst_var hd3, ec1, ec3, ec5, ec4, ed1, ed3, substL, Meaning.vals, List.flatten_cons, List.flatten_nil, List.append_nil, Meaning.vals_append, hp.is.append, hp.is'.append, gc4, gc2, gd2, hp.is.one, hp.is'.one, inner_vals hB hp.mem']
  haveI : Std.Associative f := ⟨hp.is.op.assoc⟩
  haveI : Std.Commutative f := ⟨hp.is.op.comm⟩
  haveI : Std.Associative g := ⟨hp.is'.op.assoc⟩
  haveI : Std.Commutative g := ⟨hp.is'.op.comm⟩
  generalize V.meaning.op ("System`" ++ o) (V.meaning.vals c1) = yc1
  generalize V.meaning.op ("System`" ++ o) (V.meaning.vals c3) = yc3
  generalize V.meaning.op ("System`" ++ o) (V.meaning.vals c5) = yc5
  generalize V.meaning.op ("System`" ++ a) (V.meaning.vals d1) = zd1
  generalize V.meaning.op ("System`" ++ a) (V.meaning.vals d3) = zd3
  have key := hp.dual.drop xc4 (g zd1 zd3)
  have e : g zd1 (g (not1 xc4) zd3) = g (g zd1 zd3) (not1 xc4) := by ac_rfl
  rw [e]
  generalize g (g zd1 zd3) (not1 xc4) = gg at *
  generalize g zd1 zd3 = gq at *
  have : f yc1 (f gg (f yc3 (f xc4 yc5))) = f (f xc4 gg) (f yc1 (f yc3 yc5)) := by ac_rfl
  rw [this]
  exact (hp.is.op.mono key (.refl _)).trans_eq (by ac_rfl)

/-- `contraLeft` -/
theorem contraLeft_sem (hp : Pair V o a f g u u' r) (res : Ex) (hres : ∀ ρ : String → Option Ex, ρ "System`True" = Option.none → ρ "System`False" = Option.none → V.meaning.argVals (subst ρ res) = [.bool r]) :
    RuleSem V env ("System`" ++ o) [skip, any "a", skip, notOf (call "Alternatives" [call a [skip, any "a", skip], any "a"]), skip] (contraLeft o a res).2 := by
  intro P U T ρ hB hP Bs hBs
  have hf := hB.benv.flat _ hp.mem
  have hf' := hB.benv.flat _ hp.mem'
  cases hBs with | @cons _ c1 _ _ bc1 hr =>
  cases hr with | @cons _ c2 _ _ bc2 hr =>
  cases hr with | @cons _ c3 _ _ bc3 hr =>
  cases hr with | @cons _ c4 _ _ bc4 hr =>
  cases hr with | @cons _ c5 _ _ bc5 hr =>
  cases hr
  obtain ⟨wc2, xc2, hc2, ec2, gc2⟩ := blk_any hp.is hf (ne_seq hp.mem) hB.dist.noSeq bc2
  have hn := blk_notAlt hB hp.mem' hp.is hp.is' hf.1 hc2 ec2 (hP _ (by simp)) bc4
  refine ⟨_, hres ρ (hB.names _ (by simp)) (hB.names _ (by simp)), ?_⟩
  simp only [List.flatten_cons, List.flatten_nil, List.append_nil, Meaning.vals_append, hp.is.append, gc2]
  haveI : Std.Associative f := ⟨hp.is.op.assoc⟩
  haveI : Std.Commutative f := ⟨hp.is.op.comm⟩
  haveI : Std.Associative g := ⟨hp.is'.op.assoc⟩
  haveI : Std.Commutative g := ⟨hp.is'.op.comm⟩
  generalize V.meaning.op ("System`" ++ o) (V.meaning.vals c1) = yc1
  generalize V.meaning.op ("System`" ++ o) (V.meaning.vals c3) = yc3
  generalize V.meaning.op ("System`" ++ o) (V.meaning.vals c5) = yc5
  generalize V.meaning.op ("System`" ++ o) (V.meaning.vals c4) = yc4 at hn ⊢
  have : f yc1 (f xc2 (f yc3 (f yc4 yc5))) = f (f yc1 (f yc3 yc5)) (f xc2 yc4) := by ac_rfl
  rw [this]
  refine Le.trans (hp.is.op.mono (.refl _) (y' := .bool r) ?_) (hp.dual.top _)
  rcases hn with rfl | ⟨q, rfl⟩
  · exact hp.dual.self _
  · exact hp.dual.contra _ _

/-- `contraRight` -/
theorem contraRight_sem (hp : Pair V o a f g u u' r) (res : Ex) (hres : ∀ ρ : String → Option Ex, ρ "System`True" = Option.none → ρ "System`False" = Option.none → V.meaning.argVals (subst ρ res) = [.bool r]) :
    RuleSem V env ("System`" ++ o) [skip, notOf (call "Alternatives" [call a [skip, any "a", skip], any "a"]), skip, any "a", skip] (contraRight o a res).2 := by
  intro P U T ρ hB hP Bs hBs
  have hf := hB.benv.flat _ hp.mem
  have hf' := hB.benv.flat _ hp.mem'
  cases hBs with | @cons _ c1 _ _ bc1 hr =>
  cases hr with | @cons _ c2 _ _ bc2 hr =>
  cases hr with | @cons _ c3 _ _ bc3 hr =>
  cases hr with | @cons _ c4 _ _ bc4 hr =>
  cases hr with | @cons _ c5 _ _ bc5 hr =>
  cases hr
  obtain ⟨wc4, xc4, hc4, ec4, gc4⟩ := blk_any hp.is hf (ne_seq hp.mem) hB.dist.noSeq bc4
  have hn := blk_notAlt hB hp.mem' hp.is hp.is' hf.1 hc4 ec4 (hP _ (by simp)) bc2
  refine ⟨_, hres ρ (hB.names _ (by simp)) (hB.names _ (by simp)), ?_⟩
  simp only [List.flatten_cons, List.flatten_nil, List.append_nil, Meaning.vals_append, hp.is.append, gc4]
  haveI : Std.Associative f := ⟨hp.is.op.assoc⟩
  haveI : Std.Commutative f := ⟨hp.is.op.comm⟩
  haveI : Std.Associative g := ⟨hp.is'.op.assoc⟩
  haveI : Std.Commutative g := ⟨hp.is'.op.comm⟩
  generalize V.meaning.op ("System`" ++ o) (V.meaning.vals c1) = yc1
  generalize V.meaning.op ("System`" ++ o) (V.meaning.vals c3) = yc3
  generalize V.meaning.op ("System`" ++ o) (V.meaning.vals c5) = yc5
  generalize V.meaning.op ("System`" ++ o) (V.meaning.vals c2) = yc2 at hn ⊢
  have : f yc1 (f yc2 (f yc3 (f xc4 yc5))) = f (f yc1 (f yc3 yc5)) (f xc4 yc2) := by ac_rfl
  rw [this]
  refine Le.trans (hp.is.op.mono (.refl _) (y' := .bool r) ?_) (hp.dual.top _)
  rcases hn with rfl | ⟨q, rfl⟩
  · exact hp.dual.self _
  · exact hp.dual.contra _ _

/-- `deMorgan2` -/
theorem deMorgan2_sem : RuleSem V env "System`Or" [notOf (any "x"), notOf (any "y")] deMorgan2.2 := by
  intro P U T ρ hB hP Bs hBs
  have hp := pair_or (V := V)
  have hf := hB.benv.flat "System`Or" (by simp)
  cases hBs with | @cons _ c1 _ _ bc1 hr =>
  cases hr with | @cons _ c2 _ _ bc2 hr =>
  cases hr
  obtain ⟨w1, x1, h1, e1, g1⟩ := blk_not hB TruthInterp.is_or hf.1 (hP _ (by simp)) bc1
  obtain ⟨w2, x2, h2, e2, g2⟩ := blk_not hB TruthInterp.is_or hf.1 (hP _ (by simp)) bc2
  have hand : ρ ("System`" ++ "And") = Option.none := hB.names "System`And" (by simp)
  have hnot : ρ ("System`" ++ "Not") = Option.none := hB.names "System`Not" (by simp)
  refine ⟨not1 (and2 x1 x2), ?_, ?_⟩
  · simp only [deMorgan2, notOf, andOf, call, S]
    rw [argVals_subst_call hnot (by decide)]
    simp only [vals_subst_cons, substL, Meaning.vals, List.append_nil]
    rw [argVals_subst_call hand (by decide)]
    simp only [vals_subst_cons, substL, Meaning.vals, List.append_nil, argVals_subst_var h1, argVals_subst_var h2, e1, e2]
    rw [show "System`" ++ "And" = "System`And" from rfl, TruthInterp.is_and.append, TruthInterp.is_and.one, TruthInterp.is_and.one]
    exact congrArg (fun t => [t]) (TruthInterp.op_not _)
  · simp only [List.flatten_cons, List.flatten_nil, List.append_nil, Meaning.vals_append, TruthInterp.is_or.append, g1, g2]
    exact deMorgan _ _

/-- `deMorgan3` -/
theorem deMorgan3_sem : RuleSem V env "System`Or" [notOf (any "x"), notOf (any "y"), notOf (var "z")] deMorgan3.2 := by
  intro P U T ρ hB hP Bs hBs
  have hf := hB.benv.flat "System`Or" (by simp)
  cases hBs with | @cons _ c1 _ _ bc1 hr =>
  cases hr with | @cons _ c2 _ _ bc2 hr =>
  cases hr with | @cons _ c3 _ _ bc3 hr =>
  cases hr
  obtain ⟨w1, x1, h1, e1, g1⟩ := blk_not hB TruthInterp.is_or hf.1 (hP _ (by simp)) bc1
  obtain ⟨w2, x2, h2, e2, g2⟩ := blk_not hB TruthInterp.is_or hf.1 (hP _ (by simp)) bc2
  have g3 := blk_notSym hB TruthInterp.is_or hf.1 (hP _ (by simp)) bc3
  have hand : ρ ("System`" ++ "And") = Option.none := hB.names "System`And" (by simp)
  have hnot : ρ ("System`" ++ "Not") = Option.none := hB.names "System`Not" (by simp)
  have hz : subst ρ (var "z") = var "z" := by
    rw [var, subst, show "Private`" ++ "z" = "Private`z" from rfl, hB.names "Private`z" (by simp)]
  refine ⟨not1 (and2 x1 (and2 x2 (V.meaning.atom (var "z")))), ?_, ?_⟩
  · simp only [deMorgan3, notOf, andOf, call, S]
    rw [argVals_subst_call hnot (by decide)]
    simp only [vals_subst_cons, substL, Meaning.vals, List.append_nil]
    rw [argVals_subst_call hand (by decide)]
    simp only [vals_subst_cons, substL, Meaning.vals, List.append_nil, argVals_subst_var h1, argVals_subst_var h2, e1, e2, hz]
    rw [show V.meaning.argVals (var "z") = [V.meaning.atom (var "z")] from by simp [var, Meaning.argVals]]
    rw [show "System`" ++ "And" = "System`And" from rfl, TruthInterp.is_and.append, TruthInterp.is_and.append, TruthInterp.is_and.one, TruthInterp.is_and.one, TruthInterp.is_and.one]
    exact congrArg (fun t => [t]) (TruthInterp.op_not _)
  · simp only [List.flatten_cons, List.flatten_nil, List.append_nil, Meaning.vals_append, TruthInterp.is_or.append, g1, g2, g3]
    refine Le.trans (Truth.or2_op.mono (.refl _) (deMorgan _ _)) (deMorgan _ _)

/-- `factorLeft` -/
theorem factorLeft_sem : RuleSem V env "System`And" [orOf [any "a", any "b"], orOf [any "a", any "c"]] factorLeft.2 := by
  intro P U T ρ hB hP Bs hBs
  have hf := hB.benv.flat "System`And" (by simp)
  have hf' := hB.benv.flat "System`Or" (by simp)
  cases hBs with | @cons _ c1 _ _ bc1 hr =>
  cases hr with | @cons _ c2 _ _ bc2 hr =>
  cases hr
  obtain ⟨B1, hB1, g1⟩ := blk_call hB (t := "Or") (by decide) TruthInterp.is_and hf.1 (by simp [noOwn_any]) (hP (orOf [any "a", any "b"]) (by simp)) bc1
  obtain ⟨B2, hB2, g2⟩ := blk_call hB (t := "Or") (by decide) TruthInterp.is_and hf.1 (by simp [noOwn_any]) (hP (orOf [any "a", any "c"]) (by simp)) bc2
  cases hB1 with | @cons _ d1 _ _ bd1 hr =>
  cases hr with | @cons _ d2 _ _ bd2 hr =>
  cases hr
  cases hB2 with | @cons _ k1 _ _ bk1 hr =>
  cases hr with | @cons _ k2 _ _ bk2 hr =>
  cases hr
  obtain ⟨wd1, xd1, hd1, ed1, gd1⟩ := blk_any (V := V) TruthInterp.is_or hf' (by decide) hB.dist.noSeq bd1
  obtain ⟨wd2, xd2, hd2, ed2, gd2⟩ := blk_any (V := V) TruthInterp.is_or hf' (by decide) hB.dist.noSeq bd2
  obtain ⟨wk1, xk1, hk1, ek1, gk1⟩ := blk_any (V := V) TruthInterp.is_or hf' (by decide) hB.dist.noSeq bk1
  obtain ⟨wk2, xk2, hk2, ek2, gk2⟩ := blk_any (V := V) TruthInterp.is_or hf' (by decide) hB.dist.noSeq bk2
  rw [hd1] at hk1; cases hk1
  rw [ed1] at ek1; cases ek1
  have hand : ρ ("System`" ++ "And") = Option.none := hB.names "System`And" (by simp)
  have hor : ρ ("System`" ++ "Or") = Option.none := hB.names "System`Or" (by simp)
  refine ⟨or2 xd1 (and2 xd2 xk2), ?_, ?_⟩
  · simp only [factorLeft, orOf, andOf, call, S]
    rw [argVals_subst_call hor (by decide)]
    simp only [vals_subst_cons, substL, Meaning.vals, List.append_nil]
    rw [argVals_subst_call hand (by decide)]
    simp only [vals_subst_cons, substL, Meaning.vals, List.append_nil, argVals_subst_var hd1, argVals_subst_var hd2, argVals_subst_var hk2, ed1, ed2, ek2]
    rw [show "System`" ++ "And" = "System`And" from rfl, show "System`" ++ "Or" = "System`Or" from rfl, TruthInterp.is_or.append, TruthInterp.is_and.append]
    simp only [TruthInterp.is_and.one, TruthInterp.is_or.one]
  · simp only [List.flatten_cons, List.flatten_nil, List.append_nil, Meaning.vals_append, TruthInterp.is_and.append, g1, g2]
    change Le (and2 (V.meaning.op "System`Or" _) (V.meaning.op "System`Or" _)) _
    simp only [TruthInterp.is_or.append]
    change Le (and2 (or2 (V.meaning.op ("System`" ++ "Or") _) (V.meaning.op ("System`" ++ "Or") _)) (or2 (V.meaning.op ("System`" ++ "Or") _) (V.meaning.op ("System`" ++ "Or") _))) _
    simp only [show "System`" ++ "Or" = "System`Or" from rfl]
    rw [gd1, gd2, gk1, gk2]
    exact factor _ _ _

/-- `factorRight` -/
theorem factorRight_sem : RuleSem V env "System`And" [orOf [any "b", any "a"], orOf [any "c", any "a"]] factorRight.2 := by
  intro P U T ρ hB hP Bs hBs
  have hf := hB.benv.flat "System`And" (by simp)
  have hf' := hB.benv.flat "System`Or" (by simp)
  cases hBs with | @cons _ c1 _ _ bc1 hr =>
  cases hr with | @cons _ c2 _ _ bc2 hr =>
  cases hr
  obtain ⟨B1, hB1, g1⟩ := blk_call hB (t := "Or") (by decide) TruthInterp.is_and hf.1 (by simp [noOwn_any]) (hP (orOf [any "b", any "a"]) (by simp)) bc1
  obtain ⟨B2, hB2, g2⟩ := blk_call hB (t := "Or") (by decide) TruthInterp.is_and hf.1 (by simp [noOwn_any]) (hP (orOf [any "c", any "a"]) (by simp)) bc2
  cases hB1 with | @cons _ d1 _ _ bd1 hr =>
  cases hr with | @cons _ d2 _ _ bd2 hr =>
  cases hr
  cases hB2 with | @cons _ k1 _ _ bk1 hr =>
  cases hr with | @cons _ k2 _ _ bk2 hr =>
  cases hr
  obtain ⟨wd1, xd1, hd1, ed1, gd1⟩ := blk_any (V := V) TruthInterp.is_or hf' (by decide) hB.dist.noSeq bd1
  obtain ⟨wd2, xd2, hd2, ed2, gd2⟩ := blk_any (V := V) TruthInterp.is_or hf' (by decide) hB.dist.noSeq bd2
  obtain ⟨wk1, xk1, hk1, ek1, gk1⟩ := blk_any (V := V) TruthInterp.is_or hf' (by decide) hB.dist.noSeq bk1
  obtain ⟨wk2, xk2, hk2, ek2, gk2⟩ := blk_any (V := V) TruthInterp.is_or hf' (by decide) hB.dist.noSeq bk2
  rw [hd2] at hk2; cases hk2
  rw [ed2] at ek2; cases ek2
  have hand : ρ ("System`" ++ "And") = Option.none := hB.names "System`And" (by simp)
  have hor : ρ ("System`" ++ "Or") = Option.none := hB.names "System`Or" (by simp)
  refine ⟨or2 xd2 (and2 xd1 xk1), ?_, ?_⟩
  · simp only [factorRight, orOf, andOf, call, S]
    rw [argVals_subst_call hor (by decide)]
    simp only [vals_subst_cons, substL, Meaning.vals, List.append_nil]
    rw [argVals_subst_call hand (by decide)]
    simp only [vals_subst_cons, substL, Meaning.vals, List.append_nil, argVals_subst_var hd2, argVals_subst_var hd1, argVals_subst_var hk1, ed2, ed1, ek1]
    rw [show "System`" ++ "And" = "System`And" from rfl, show "System`" ++ "Or" = "System`Or" from rfl, TruthInterp.is_or.append, TruthInterp.is_and.append]
    simp only [TruthInterp.is_and.one, TruthInterp.is_or.one]
  · simp only [List.flatten_cons, List.flatten_nil, List.append_nil, Meaning.vals_append, TruthInterp.is_and.append, g1, g2]
    change Le (and2 (V.meaning.op "System`Or" _) (V.meaning.op "System`Or" _)) _
    simp only [TruthInterp.is_or.append]
    change Le (and2 (or2 (V.meaning.op ("System`" ++ "Or") _) (V.meaning.op ("System`" ++ "Or") _)) (or2 (V.meaning.op ("System`" ++ "Or") _) (V.meaning.op ("System`" ++ "Or") _))) _
    simp only [show "System`" ++ "Or" = "System`Or" from rfl]
    rw [gd1, gd2, gk1, gk2]
    rw [Truth.or2_op.comm xd1, Truth.or2_op.comm xk1]; exact factor _ _ _

end
end Expreduce
