import Verif.Model.Arith
import Verif.Spec.Arith
import Mathlib.Tactic.FieldSimp
import Mathlib.Tactic.Ring
import Mathlib.Tactic.LinearCombination
import Mathlib.Tactic.Positivity
import Mathlib.Tactic.Linarith

namespace Expreduce
open Ex

section
variable {K : Type _} [Field K] [CharZero K] (ρ : Ex → K) (iu : K)

theorem sumValue_eq (l : List Ex) : sumValue ρ iu l = (l.map (value ρ iu)).sum := by
  induction l with
  | nil => simp [sumValue]
  | cons a as ih => simp [sumValue, ih]

theorem prodValue_eq (l : List Ex) : prodValue ρ iu l = (l.map (value ρ iu)).prod := by
  induction l with
  | nil => simp [prodValue]
  | cons a as ih => simp [prodValue, ih]

theorem value_plus (l : List Ex) : value ρ iu (.expr (S "Plus" :: l)) = (l.map (value ρ iu)).sum := by
  simp [value, sumValue_eq]

theorem value_times (l : List Ex) : value ρ iu (.expr (S "Times" :: l)) = (l.map (value ρ iu)).prod := by
  have : S "Times" ≠ S "Plus" := by decide
  simp [value, prodValue_eq, this]

/-! ### Rational normalisation -/

theorem evalRational_canon (n d : Int) (hd : d ≠ 0) : CanonReal (evalRational n d) := by
  unfold evalRational
  have h0 : ¬ (n = 0 ∧ d = 0) := fun h => hd h.2
  rw [if_neg h0, if_neg hd]
  by_cases hn : n = 0
  · simp [hn, CanonReal]
  rw [if_neg hn]
  have key : ∀ (b : Bool) , CanonReal
      (if (d.natAbs : Int) / (Int.gcd n.natAbs d.natAbs : Int) = 1 then
        if !b then Ex.int (n.natAbs / (Int.gcd n.natAbs d.natAbs : Int)) else .int (-(n.natAbs / (Int.gcd n.natAbs d.natAbs : Int)))
      else if !b then .rat (n.natAbs / (Int.gcd n.natAbs d.natAbs : Int)) (d.natAbs / (Int.gcd n.natAbs d.natAbs : Int))
      else .rat (-(n.natAbs / (Int.gcd n.natAbs d.natAbs : Int))) (d.natAbs / (Int.gcd n.natAbs d.natAbs : Int))) := by
    intro b
    have hg : 0 < Int.gcd n.natAbs d.natAbs := Int.gcd_pos_of_ne_zero_right _ (by omega)
    have hpos : 0 < (d.natAbs : Int) / (Int.gcd n.natAbs d.natAbs : Int) :=
      Int.ediv_pos_of_pos_of_dvd (by omega) (by omega) (Int.gcd_dvd_right _ _)
    have hc : Int.gcd ((n.natAbs : Int) / (Int.gcd n.natAbs d.natAbs : Int)) ((d.natAbs : Int) / (Int.gcd n.natAbs d.natAbs : Int)) = 1 :=
      Int.gcd_ediv_gcd_ediv_gcd hg
    split
    · cases b <;> trivial
    · rename_i h1
      cases b
      · exact ⟨by omega, hc⟩
      · exact ⟨by omega, by rw [Int.neg_gcd]; exact hc⟩
  exact key _

theorem value_evalRational (n d : Int) (hd : d ≠ 0) : value ρ iu (evalRational n d) = (n : K) / d := by
  unfold evalRational
  have h0 : ¬ (n = 0 ∧ d = 0) := fun h => hd h.2
  rw [if_neg h0, if_neg hd]
  by_cases hn : n = 0
  · simp [hn, value]
  rw [if_neg hn]
  have hdK : (d : K) ≠ 0 := by exact_mod_cast hd
  simp only
  generalize hgd : (Int.gcd n.natAbs d.natAbs : Int) = g
  have hg : g ≠ 0 := by
    have : 0 < Int.gcd n.natAbs d.natAbs := Int.gcd_pos_of_ne_zero_right _ (by omega)
    omega
  obtain ⟨a, ha⟩ : g ∣ (n.natAbs : Int) := hgd ▸ Int.gcd_dvd_left _ _
  obtain ⟨b, hb⟩ : g ∣ (d.natAbs : Int) := hgd ▸ Int.gcd_dvd_right _ _
  have ea : (n.natAbs : Int) / g = a := by rw [ha, Int.mul_ediv_cancel_left _ hg]
  have eb : (d.natAbs : Int) / g = b := by rw [hb, Int.mul_ediv_cancel_left _ hg]
  rw [ea, eb]
  have hgK : (g : K) ≠ 0 := by exact_mod_cast hg
  have hb0 : b ≠ 0 := by rintro rfl; simp at hb; omega
  have hbK : (b : K) ≠ 0 := by exact_mod_cast hb0
  have main : (if ((decide (n < 0)) != (decide (d < 0))) then -(a : K) / b else (a : K) / b) = (n : K) / d := by
    have en : (n : K) = (if n < 0 then -1 else 1) * (g * a) := by
      have : n = (if n < 0 then -1 else 1) * (g * a) := by rw [← ha]; split <;> omega
      have := congrArg (Int.cast : Int → K) this
      push_cast at this; exact this
    have ed : (d : K) = (if d < 0 then -1 else 1) * (g * b) := by
      have : d = (if d < 0 then -1 else 1) * (g * b) := by rw [← hb]; split <;> omega
      have := congrArg (Int.cast : Int → K) this
      push_cast at this; exact this
    rw [en, ed]
    by_cases h1 : n < 0 <;> by_cases h2 : d < 0 <;> simp [h1, h2] <;> field_simp
  rw [← main]
  cases hneg : ((decide (n < 0)) != (decide (d < 0)))
  · by_cases h1 : b = 1
    · simp [h1, value]
    · simp [h1, value]
  · by_cases h1 : b = 1
    · simp [h1, value]
    · simp [h1, value]

theorem ExactNum.value_evalNumber {e : Ex} (h : ExactNum e) : value ρ iu (evalNumber e) = value ρ iu e := by
  have hr : ∀ a, ExactReal a → value ρ iu (evalReal a) = value ρ iu a := by
    intro a ha
    cases a <;> simp only [ExactReal] at ha <;> simp only [evalReal, value]
    exact value_evalRational ρ iu _ _ ha
  cases e <;> simp only [ExactNum] at h <;> simp only [evalNumber]
  · rw [value_evalRational ρ iu _ _ h, value]
  · rename_i a b
    unfold evalComplex
    split
    · rename_i h0
      have := hr b h.2
      rw [h0] at this
      rw [value, ← this, hr a h.1]; simp [value]
    · rw [value, value, hr a h.1, hr b h.2]

theorem ExactNum.evalNumber_canon {e : Ex} (h : ExactNum e) : CanonNum (evalNumber e) := by
  have hr : ∀ a, ExactReal a → CanonReal (evalReal a) := by
    intro a ha
    cases a <;> simp only [ExactReal] at ha <;> simp only [evalReal]
    · trivial
    · exact evalRational_canon _ _ ha
  have up : ∀ a, CanonReal a → CanonNum a := by
    intro a ha; cases a <;> simp_all [CanonNum, CanonReal]
  cases e <;> simp only [ExactNum] at h <;> simp only [evalNumber]
  · trivial
  · exact up _ (evalRational_canon _ _ h)
  · unfold evalComplex
    split
    · exact up _ (hr _ h.1)
    · rename_i h0
      exact ⟨hr _ h.1, hr _ h.2, h0⟩

theorem CanonReal.evalReal_id {e : Ex} (h : CanonReal e) : evalReal e = e := by
  cases e <;> simp only [CanonReal] at h <;> simp only [evalReal]
  rename_i n d
  have hd : d ≠ 0 := by omega
  have hn : n ≠ 0 := by rintro rfl; simp at h; omega
  unfold evalRational
  rw [if_neg (by tauto), if_neg hd, if_neg hn]
  have hg : (Int.gcd n.natAbs d.natAbs : Int) = 1 := by
    have := h.2; simp only [Int.gcd, Int.natAbs_natCast] at this ⊢; exact_mod_cast this
  simp only [hg, Int.ediv_one]
  have h2 : ¬ (d < 0) := by omega
  rw [if_neg (by omega)]
  by_cases h1 : n < 0
  · have e : -(n.natAbs : Int) = n := by omega
    have e2 : (d.natAbs : Int) = d := by omega
    rw [e, e2]; simp [h1, h2]
  · have e : (n.natAbs : Int) = n := by omega
    have e2 : (d.natAbs : Int) = d := by omega
    rw [e, e2]; simp [h1, h2]

theorem CanonNum.evalNumber_id {e : Ex} (h : CanonNum e) : evalNumber e = e := by
  cases e <;> simp only [CanonNum, CanonReal] at h <;> simp only [evalNumber]
  · rename_i n d; exact CanonReal.evalReal_id (e := .rat n d) h
  · rename_i a b
    unfold evalComplex
    rw [CanonReal.evalReal_id h.1, CanonReal.evalReal_id h.2.1, if_neg h.2.2]

/-- The rational value of an exact real. -/
def exactVal : Ex → Rat
  | .int n => n
  | .rat n d => n / d
  | _ => 0

theorem ExactReal.value_eq {e : Ex} (h : ExactReal e) : value ρ iu e = ((exactVal e : Rat) : K) := by
  cases e <;> simp only [ExactReal] at h <;> simp [value, exactVal]

theorem CanonReal.exact {e : Ex} (h : CanonReal e) : ExactReal e := by
  cases e <;> simp_all [CanonReal, ExactReal]; omega

theorem CanonReal.ext {a b : Ex} (ha : CanonReal a) (hb : CanonReal b) (h : exactVal a = exactVal b) : a = b := by
  have key : ∀ {e : Ex}, CanonReal e → ∃ n d : Int, 0 < d ∧ Nat.Coprime n.natAbs d.natAbs ∧ exactVal e = n / d ∧
      e = (if d = 1 then .int n else .rat n d) := by
    intro e he
    cases e <;> simp only [CanonReal] at he
    · rename_i n; exact ⟨n, 1, by omega, by simp, by simp [exactVal], by simp⟩
    · exact ⟨_, _, by omega, he.2, rfl, by rw [if_neg (by omega)]⟩
  obtain ⟨n, d, hd, hc, hv, he⟩ := key ha
  obtain ⟨n', d', hd', hc', hv', he'⟩ := key hb
  rw [hv, hv'] at h
  obtain ⟨h1, h2⟩ := Rat.div_int_inj hd hd' hc hc' h
  rw [he, he', h1, h2]

/-- In a field of characteristic 0, `a + i b = c + i d` with rational coefficients forces equality. -/
theorem rat_iu_inj {iu : K} (hi : iu * iu = -1) {a b c d : Rat}
    (h : (a : K) + iu * b = c + iu * d) : a = c ∧ b = d := by
  by_cases hbd : b = d
  · subst hbd
    have : (a : K) = c := by linear_combination h
    exact ⟨by exact_mod_cast this, rfl⟩
  · exfalso
    have hne : ((b - d : Rat) : K) ≠ 0 := by
      have : b - d ≠ 0 := sub_ne_zero.2 hbd
      exact_mod_cast this
    have h1 : iu * ((b - d : Rat) : K) = ((c - a : Rat) : K) := by push_cast; linear_combination h
    have h2 : ((c - a : Rat) : K) * ((c - a : Rat) : K) = -(((b - d : Rat) : K) * ((b - d : Rat) : K)) := by
      rw [← h1]; linear_combination ((b - d : Rat) : K) * ((b - d : Rat) : K) * hi
    have h3 : (c - a) * (c - a) = -((b - d) * (b - d)) := by exact_mod_cast h2
    have h4 : 0 < (b - d) * (b - d) := by
      have : b - d ≠ 0 := sub_ne_zero.2 hbd
      exact mul_self_pos.2 this
    have h5 : 0 ≤ (c - a) * (c - a) := mul_self_nonneg _
    linarith

theorem CanonNum.split {e : Ex} (h : CanonNum e) : ∃ a b, CanonReal a ∧ CanonReal b ∧
    e = evalComplex a b ∧ value ρ iu e = (exactVal a : K) + iu * (exactVal b : K) := by
  cases e <;> simp only [CanonNum, CanonReal] at h
  · exact ⟨.int _, .int 0, trivial, trivial, by simp [evalComplex, evalReal]; rfl, by simp [value, exactVal]⟩
  · rename_i n d
    refine ⟨.rat n d, .int 0, h, trivial, ?_, by simp [value, exactVal]⟩
    have e0 : evalReal (.int 0) = .int 0 := rfl
    rw [evalComplex, e0, if_pos rfl, CanonReal.evalReal_id (e := .rat n d) h]
  · rename_i a b
    refine ⟨a, b, h.1, h.2.1, ?_, ?_⟩
    · rw [evalComplex, CanonReal.evalReal_id h.1, CanonReal.evalReal_id h.2.1, if_neg h.2.2]
    · rw [value, ExactReal.value_eq ρ iu (CanonReal.exact h.1), ExactReal.value_eq ρ iu (CanonReal.exact h.2.1)]

theorem CanonNum.ext (hi : iu * iu = -1) {x y : Ex} (hx : CanonNum x) (hy : CanonNum y)
    (h : value ρ iu x = value ρ iu y) : x = y := by
  obtain ⟨a, b, ha, hb, he, hv⟩ := hx.split ρ iu
  obtain ⟨c, d, hc, hd, he', hv'⟩ := hy.split ρ iu
  rw [hv, hv'] at h
  obtain ⟨h1, h2⟩ := rat_iu_inj hi h
  rw [he, he', ha.ext hc h1, hb.ext hd h2]

/-! ### Folding numbers -/

/-- Combine two values. -/
def opK : FoldFn → K → K → K
  | .add, a, b => a + b
  | .mul, a, b => a * b

/-- Identity element. -/
def idK : FoldFn → K
  | .add => 0
  | .mul => 1

theorem opK_id (fn : FoldFn) (a : K) : opK fn (idK fn) a = a := by cases fn <;> simp [opK, idK]
theorem opK_comm (fn : FoldFn) (a b : K) : opK fn a b = opK fn b a := by cases fn <;> simp [opK, add_comm, mul_comm]
theorem opK_assoc (fn : FoldFn) (a b c : K) : opK fn (opK fn a b) c = opK fn a (opK fn b c) := by
  cases fn <;> simp [opK, add_assoc, mul_assoc]

/-- Value of a list under the folding function. -/
def foldK (fn : FoldFn) (l : List Ex) : K := (l.map (value ρ iu)).foldr (opK fn) (idK fn)

/-- Value of an optional component. -/
def optV (fn : FoldFn) : Option Ex → K
  | none => idK fn
  | some e => value ρ iu e

/-- Value of the accumulators. -/
def accV (fn : FoldFn) (a : Acc) : K :=
  opK fn (opK fn (optV ρ iu fn (a.i.map .int)) (optV ρ iu fn (a.r.map fun q => .rat q.1 q.2)))
    (optV ρ iu fn (a.c.map fun z => .cplx z.1 z.2))

/-- The accumulators hold valid exact numbers only. -/
structure AccOk (a : Acc) : Prop where
  f : a.f = none
  r : ∀ q, a.r = some q → q.2 ≠ 0
  c : ∀ z, a.c = some z → ExactReal z.1 ∧ ExactReal z.2

/-- Complex operations that are exact on exact numbers. -/
structure OpsOk (o : COps) : Prop where
  real : ∀ fn z e, ExactReal z.1 → ExactReal z.2 → ExactReal e →
    ExactReal (o.real fn z e).1 ∧ ExactReal (o.real fn z e).2 ∧
    value ρ iu (.cplx (o.real fn z e).1 (o.real fn z e).2) = opK fn (value ρ iu (.cplx z.1 z.2)) (value ρ iu e)
  comp : ∀ fn z w, ExactReal z.1 → ExactReal z.2 → ExactReal w.1 → ExactReal w.2 →
    ExactReal (o.comp fn z w).1 ∧ ExactReal (o.comp fn z w).2 ∧
    value ρ iu (.cplx (o.comp fn z w).1 (o.comp fn z w).2) = opK fn (value ρ iu (.cplx z.1 z.2)) (value ρ iu (.cplx w.1 w.2))

theorem value_opInt (fn : FoldFn) (a b : Int) : value ρ iu (.int (opInt fn a b)) = opK fn (value ρ iu (.int a)) (value ρ iu (.int b)) := by
  cases fn <;> simp [opInt, opK, value]

theorem value_opRat (fn : FoldFn) (p q : Int × Int) (hp : p.2 ≠ 0) (hq : q.2 ≠ 0) :
    (opRat fn p q).2 ≠ 0 ∧ value ρ iu (.rat (opRat fn p q).1 (opRat fn p q).2)
      = opK fn (value ρ iu (.rat p.1 p.2)) (value ρ iu (.rat q.1 q.2)) := by
  obtain ⟨n, d⟩ := p
  obtain ⟨n', d'⟩ := q
  simp only at hp hq
  have h1 : (d : K) ≠ 0 := by exact_mod_cast hp
  have h2 : (d' : K) ≠ 0 := by exact_mod_cast hq
  cases fn
  · refine ⟨by simp [opRat]; tauto, ?_⟩
    simp only [opRat, opK, value]; push_cast; field_simp
  · refine ⟨by simp [opRat]; tauto, ?_⟩
    simp only [opRat, opK, value]; push_cast; field_simp

theorem value_opRatInt (fn : FoldFn) (p : Int × Int) (i : Int) (hp : p.2 ≠ 0) :
    (opRatInt fn p i).2 ≠ 0 ∧ value ρ iu (.rat (opRatInt fn p i).1 (opRatInt fn p i).2)
      = opK fn (value ρ iu (.rat p.1 p.2)) (value ρ iu (.int i)) := by
  obtain ⟨n, d⟩ := p
  simp only at hp
  have h1 : (d : K) ≠ 0 := by exact_mod_cast hp
  cases fn
  · refine ⟨by simpa [opRatInt] using hp, ?_⟩
    simp only [opRatInt, opK, value]; push_cast; field_simp
  · refine ⟨by simpa [opRatInt] using hp, ?_⟩
    simp only [opRatInt, opK, value]; push_cast; field_simp

theorem accStep_ok {o : COps} (ho : OpsOk ρ iu o) (fn : FoldFn) {a : Acc} (ha : AccOk a) {e : Ex} (he : ExactNum e) :
    ∃ a', accStep o fn a e = some a' ∧ AccOk a' ∧ accV ρ iu fn a' = opK fn (accV ρ iu fn a) (value ρ iu e) := by
  obtain ⟨ai, ar, af, ac⟩ := a
  obtain ⟨hf, hr, hc⟩ := ha
  simp only at hf hr hc
  cases e <;> simp only [ExactNum] at he
  · rename_i n
    refine ⟨_, rfl, ⟨hf, hr, hc⟩, ?_⟩
    cases ai with
    | none =>
      simp only [accV, optV, Option.map, opK_id]
      cases fn <;> simp only [opK, idK] <;> ring
    | some m =>
      simp only [accV, optV, Option.map, value_opInt]
      cases fn <;> simp only [opK] <;> ring
  · rename_i n d
    cases ar with
    | none =>
      refine ⟨_, rfl, ⟨hf, ?_, hc⟩, ?_⟩
      · rintro q hq; cases hq; exact he
      · simp only [accV, optV, Option.map]
        cases fn <;> simp only [opK, idK] <;> ring
    | some q =>
      have h := value_opRat ρ iu fn q (n, d) (hr q rfl) he
      refine ⟨_, rfl, ⟨hf, ?_, hc⟩, ?_⟩
      · rintro q' hq; cases hq; exact h.1
      · simp only [accV, optV, Option.map, h.2]
        cases fn <;> simp only [opK] <;> ring
  · rename_i re im
    cases ac with
    | none =>
      refine ⟨_, rfl, ⟨hf, hr, ?_⟩, ?_⟩
      · rintro z hz; cases hz; exact he
      · simp only [accV, optV, Option.map]
        cases fn <;> simp only [opK, idK] <;> ring
    | some z =>
      have h := ho.comp fn z (re, im) (hc z rfl).1 (hc z rfl).2 he.1 he.2
      refine ⟨_, rfl, ⟨hf, hr, ?_⟩, ?_⟩
      · rintro z' hz; cases hz; exact ⟨h.1, h.2.1⟩
      · simp only [accV, optV, Option.map, h.2.2]
        cases fn <;> simp only [opK] <;> ring

theorem accStep_stop (o : COps) (fn : FoldFn) (a : Acc) {e : Ex} (he : e.numberQ = false) : accStep o fn a e = none := by
  cases e <;> simp_all [numberQ, accStep]

theorem accLoop_ok {o : COps} (ho : OpsOk ρ iu o) (fn : FoldFn) (nums rest : List Ex) (hr : ∀ x, rest.head? = some x → x.numberQ = false)
    {a : Acc} (ha : AccOk a) (i : Nat) (hn : ∀ e ∈ nums, ExactNum e) :
    ∃ a', accLoop o fn a i (nums ++ rest) = (a', if rest = [] then none else some (i + nums.length)) ∧ AccOk a' ∧
      accV ρ iu fn a' = opK fn (accV ρ iu fn a) (foldK ρ iu fn nums) ∧
      ((nums ≠ [] ∨ a.i.isSome ∨ a.r.isSome ∨ a.c.isSome) → (a'.i.isSome ∨ a'.r.isSome ∨ a'.c.isSome)) := by
  induction nums generalizing a i with
  | nil =>
    refine ⟨a, ?_, ha, ?_, by simp⟩
    · cases rest with
      | nil => simp [accLoop]
      | cons x xs => simp [accLoop, accStep_stop o fn a (hr x rfl)]
    · rw [opK_comm]; simp [foldK, opK_id]
  | cons e es ih =>
    obtain ⟨a1, h1, hok, hv⟩ := accStep_ok ρ iu ho fn ha (hn e (by simp))
    obtain ⟨a2, h2, hok2, hv2, hs⟩ := ih hok (i + 1) (fun x hx => hn x (by simp [hx]))
    refine ⟨a2, ?_, hok2, ?_, ?_⟩
    · simp only [List.cons_append, accLoop, h1, h2, List.length_cons]
      congr 2; congr 1; omega
    · rw [hv2, hv, opK_assoc]; simp [foldK]
    · intro _
      apply hs; right
      have he := hn e (by simp)
      cases e <;> simp only [ExactNum] at he <;> simp only [accStep, Option.some.injEq] at h1 <;> subst h1 <;> simp

theorem typedRealPart_ok {o : COps} (ho : OpsOk ρ iu o) (fn : FoldFn) {a : Acc} (ha : AccOk a)
    (hs : a.i.isSome ∨ a.r.isSome ∨ a.c.isSome) :
    ∃ v, typedRealPart o fn a = some v ∧ ExactNum v ∧ (a.c = none → ExactReal v) ∧ value ρ iu v = accV ρ iu fn a := by
  obtain ⟨ai, ar, af, ac⟩ := a
  obtain ⟨hf, hr, hc⟩ := ha
  simp only at hf hr hc hs
  subst hf
  cases ac with
  | none =>
    cases ar with
    | none =>
      cases ai with
      | none => simp at hs
      | some i =>
        refine ⟨.int i, rfl, trivial, fun _ => trivial, ?_⟩
        simp only [accV, optV, Option.map]
        cases fn <;> simp only [opK, idK] <;> ring
    | some r =>
      cases ai with
      | none =>
        refine ⟨.rat r.1 r.2, rfl, hr r rfl, fun _ => hr r rfl, ?_⟩
        simp only [accV, optV, Option.map]
        cases fn <;> simp only [opK, idK] <;> ring
      | some i =>
        have h := value_opRatInt ρ iu fn r i (hr r rfl)
        refine ⟨.rat _ _, rfl, h.1, fun _ => h.1, ?_⟩
        simp only [accV, optV, Option.map, h.2]
        cases fn <;> simp only [opK, idK] <;> ring
  | some z =>
    have hz := hc z rfl
    cases ar with
    | none =>
      cases ai with
      | none =>
        refine ⟨.cplx z.1 z.2, rfl, hz, fun h => by simp at h, ?_⟩
        simp only [accV, optV, Option.map]
        cases fn <;> simp only [opK, idK] <;> ring
      | some i =>
        have h := ho.real fn z (.int i) hz.1 hz.2 trivial
        refine ⟨.cplx _ _, rfl, ⟨h.1, h.2.1⟩, fun h => by simp at h, ?_⟩
        simp only [accV, optV, Option.map, h.2.2]
        cases fn <;> simp only [opK, idK] <;> ring
    | some r =>
      have h1 := ho.real fn z (.rat r.1 r.2) hz.1 hz.2 (hr r rfl)
      cases ai with
      | none =>
        refine ⟨.cplx _ _, rfl, ⟨h1.1, h1.2.1⟩, fun h => by simp at h, ?_⟩
        simp only [accV, optV, Option.map, h1.2.2]
        cases fn <;> simp only [opK, idK] <;> ring
      | some i =>
        have h := ho.real fn _ (.int i) h1.1 h1.2.1 trivial
        refine ⟨.cplx _ _, rfl, ⟨h.1, h.2.1⟩, fun h => by simp at h, ?_⟩
        simp only [accV, optV, Option.map, h.2.2, h1.2.2]
        cases fn <;> simp only [opK, idK] <;> ring

/-- On real arguments the complex operations are never consulted. -/
theorem accLoop_real (o o' : COps) (fn : FoldFn) (l : List Ex) (hl : ∀ e ∈ l, ExactReal e) (a : Acc) (i : Nat) :
    accLoop o fn a i l = accLoop o' fn a i l ∧ (accLoop o fn a i l).1.c = a.c := by
  induction l generalizing a i with
  | nil => simp [accLoop]
  | cons e es ih =>
    have he := hl e (by simp)
    cases e <;> simp only [ExactReal] at he <;> simp only [accLoop, accStep]
    · exact ⟨(ih (fun x hx => hl x (by simp [hx])) _ _).1, (ih (fun x hx => hl x (by simp [hx])) _ _).2⟩
    · exact ⟨(ih (fun x hx => hl x (by simp [hx])) _ _).1, (ih (fun x hx => hl x (by simp [hx])) _ _).2⟩

theorem ExactReal.num {e : Ex} (h : ExactReal e) : ExactNum e := by
  cases e <;> simp_all [ExactReal, ExactNum]

/-- The trivially exact operations used to reason about folds of reals. -/
theorem exists_opsOk (hi : iu * iu = -1) : ∃ o : COps, OpsOk ρ iu o := by
  classical
  -- exact real numbers with a given rational value
  let mk : Rat → Ex := fun q => .rat q.num q.den
  have hmk : ∀ q, ExactReal (mk q) := fun q => by simp [mk, ExactReal]
  have hv : ∀ q, value ρ iu (mk q) = (q : K) := fun q => by
    rw [ExactReal.value_eq ρ iu (hmk q)]
    simp [mk, exactVal, Rat.num_div_den]
  refine ⟨⟨fun fn z e => match fn with
      | .add => (mk (exactVal z.1 + exactVal e), z.2)
      | .mul => (mk (exactVal z.1 * exactVal e), mk (exactVal z.2 * exactVal e)),
    fun fn z w => match fn with
      | .add => (mk (exactVal z.1 + exactVal w.1), mk (exactVal z.2 + exactVal w.2))
      | .mul => (mk (exactVal z.1 * exactVal w.1 - exactVal z.2 * exactVal w.2),
          mk (exactVal z.1 * exactVal w.2 + exactVal z.2 * exactVal w.1))⟩, ?_, ?_⟩
  · intro fn z e h1 h2 h3
    cases fn
    · refine ⟨hmk _, h2, ?_⟩
      simp only [value, hv, opK, ExactReal.value_eq ρ iu h1, ExactReal.value_eq ρ iu h3]
      push_cast; ring
    · refine ⟨hmk _, hmk _, ?_⟩
      simp only [value, hv, opK, ExactReal.value_eq ρ iu h1, ExactReal.value_eq ρ iu h2, ExactReal.value_eq ρ iu h3]
      push_cast; ring
  · intro fn z w h1 h2 h3 h4
    cases fn
    · refine ⟨hmk _, hmk _, ?_⟩
      simp only [value, hv, opK, ExactReal.value_eq ρ iu h1, ExactReal.value_eq ρ iu h2,
        ExactReal.value_eq ρ iu h3, ExactReal.value_eq ρ iu h4]
      push_cast; ring
    · refine ⟨hmk _, hmk _, ?_⟩
      simp only [value, hv, opK, ExactReal.value_eq ρ iu h1, ExactReal.value_eq ρ iu h2,
        ExactReal.value_eq ρ iu h3, ExactReal.value_eq ρ iu h4]
      push_cast
      linear_combination (-(exactVal z.2 : K) * (exactVal w.2 : K)) * hi

theorem typedRealPart_noc (o o' : COps) (fn : FoldFn) (a : Acc) (h : a.c = none) : typedRealPart o fn a = typedRealPart o' fn a := by
  simp [typedRealPart, h]

/-- `ComputeNumericPart` at any depth is exact on exact reals. -/
theorem cnpF_real (hi : iu * iu = -1) (n : Nat) (fn : FoldFn) (l : List Ex) (hl : ∀ e ∈ l, ExactReal e) (hne : l ≠ []) :
    ∃ v, cnpF (n + 1) fn l = (some v, none) ∧ ExactReal v ∧ value ρ iu v = foldK ρ iu fn l := by
  obtain ⟨o', ho'⟩ := exists_opsOk ρ iu hi
  rw [cnpF]
  generalize cOpsOf (fun fn' l => (cnpF n fn' l).1) = o
  obtain ⟨h1, h2⟩ := accLoop_real o o' fn l hl {} 1
  obtain ⟨a', he, hok, hv, hs⟩ := accLoop_ok ρ iu ho' fn l [] (by simp) (a := {}) ⟨rfl, by simp, by simp⟩ 1
    (fun e he => (hl e he).num)
  rw [List.append_nil] at he
  rw [h1, he] at h2
  simp only at h2
  obtain ⟨v, hv1, hv2, hv3, hv4⟩ := typedRealPart_ok ρ iu ho' fn hok (hs (Or.inl hne))
  refine ⟨v, ?_, hv3 h2, ?_⟩
  · rw [h1, he, typedRealPart_noc o o' fn a' h2, hv1]; simp
  · rw [hv4, hv]
    have : accV ρ iu fn {} = (idK fn : K) := by
      simp only [accV, optV, Option.map]; cases fn <;> simp [opK, idK]
    rw [this, opK_id]

theorem cOps_ok (hi : iu * iu = -1) (n : Nat) : OpsOk ρ iu (cOpsOf (fun fn' l => (cnpF (n + 1) fn' l).1)) := by
  have two : ∀ fn a b, ExactReal a → ExactReal b →
      ∃ v, (cnpF (n + 1) fn [a, b]).1 = some v ∧ ExactReal v ∧ value ρ iu v = opK fn (value ρ iu a) (value ρ iu b) := by
    intro fn a b ha hb
    obtain ⟨v, h1, h2, h3⟩ := cnpF_real ρ iu hi n fn [a, b] (by simp [ha, hb]) (by simp)
    refine ⟨v, by rw [h1], h2, ?_⟩
    rw [h3]; simp only [foldK, List.map, List.foldr]; rw [opK_comm fn (value ρ iu b), opK_id]
  have three : ∀ a b, ExactReal a → ExactReal b →
      ∃ v, (cnpF (n + 1) .mul [.int (-1), a, b]).1 = some v ∧ ExactReal v ∧ value ρ iu v = -(value ρ iu a * value ρ iu b) := by
    intro a b ha hb
    obtain ⟨v, h1, h2, h3⟩ := cnpF_real ρ iu hi n .mul [.int (-1), a, b]
      (by intro e he; simp only [List.mem_cons, List.not_mem_nil, or_false] at he; rcases he with rfl | rfl | rfl; exacts [trivial, ha, hb]) (by simp)
    refine ⟨v, by rw [h1], h2, ?_⟩
    rw [h3]; simp [foldK, opK, idK, value]
  refine ⟨?_, ?_⟩
  · intro fn z e h1 h2 h3
    cases fn
    · obtain ⟨v, hv, hv1, hv2⟩ := two .add z.1 e h1 h3
      simp only [cOpsOf, hv, Option.getD_some]
      refine ⟨hv1, h2, ?_⟩
      simp only [value, hv2, opK]; ring
    · obtain ⟨v, hv, hv1, hv2⟩ := two .mul z.1 e h1 h3
      obtain ⟨w, hw, hw1, hw2⟩ := two .mul z.2 e h2 h3
      simp only [cOpsOf, hv, hw, Option.getD_some]
      refine ⟨hv1, hw1, ?_⟩
      simp only [value, hv2, hw2, opK]; ring
  · intro fn z w h1 h2 h3 h4
    cases fn
    · obtain ⟨v, hv, hv1, hv2⟩ := two .add z.1 w.1 h1 h3
      obtain ⟨u, hu, hu1, hu2⟩ := two .add z.2 w.2 h2 h4
      simp only [cOpsOf, hv, hu, Option.getD_some]
      refine ⟨hv1, hu1, ?_⟩
      simp only [value, hv2, hu2, opK]; ring
    · obtain ⟨a, ha, ha1, ha2⟩ := two .mul z.1 w.1 h1 h3
      obtain ⟨b, hb, hb1, hb2⟩ := three z.2 w.2 h2 h4
      obtain ⟨c, hc, hc1, hc2⟩ := two .mul z.1 w.2 h1 h4
      obtain ⟨d, hd, hd1, hd2⟩ := two .mul z.2 w.1 h2 h3
      obtain ⟨e, he, he1, he2⟩ := two .add a b ha1 hb1
      obtain ⟨f, hf, hf1, hf2⟩ := two .add c d hc1 hd1
      simp only [cOpsOf, ha, hb, hc, hd, he, hf, Option.getD_some]
      refine ⟨he1, hf1, ?_⟩
      simp only [value, he2, hf2, ha2, hb2, hc2, hd2, opK]
      linear_combination (-(value ρ iu z.2) * (value ρ iu w.2)) * hi

theorem computeNumericPart_ok (hi : iu * iu = -1) (fn : FoldFn) (nums rest : List Ex)
    (hn : ∀ e ∈ nums, ExactNum e) (hne : nums ≠ []) (hr : ∀ x, rest.head? = some x → x.numberQ = false) :
    ∃ v, computeNumericPart fn (nums ++ rest) = (some v, if rest = [] then none else some (1 + nums.length)) ∧
      ExactNum v ∧ value ρ iu v = foldK ρ iu fn nums := by
  have ho := cOps_ok ρ iu hi 0
  unfold computeNumericPart
  rw [cnpF]
  obtain ⟨a', he, hok, hv, hs⟩ := accLoop_ok ρ iu ho fn nums rest hr (a := {}) ⟨rfl, by simp, by simp⟩ 1 hn
  obtain ⟨v, hv1, hv2, _, hv4⟩ := typedRealPart_ok ρ iu ho fn hok (hs (Or.inl hne))
  refine ⟨v, ?_, hv2, ?_⟩
  · rw [he]; simp only; rw [hv1]
  · rw [hv4, hv]
    have : accV ρ iu fn {} = (idK fn : K) := by
      simp only [accV, optV, Option.map]; cases fn <;> simp [opK, idK]
    rw [this, opK_id]

theorem foldK_add (l : List Ex) : foldK ρ iu .add l = (l.map (value ρ iu)).sum := by
  induction l with
  | nil => simp [foldK, idK]
  | cons a as ih => simp only [foldK, List.map, List.foldr, List.sum_cons, opK] at ih ⊢; rw [ih]

theorem foldK_mul (l : List Ex) : foldK ρ iu .mul l = (l.map (value ρ iu)).prod := by
  induction l with
  | nil => simp [foldK, idK]
  | cons a as ih => simp only [foldK, List.map, List.foldr, List.prod_cons, opK] at ih ⊢; rw [ih]

end
end Expreduce
