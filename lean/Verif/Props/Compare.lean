import Verif.Proofs.SameQ
import Verif.Proofs.OrderSort
import Verif.Proofs.Arith
import Verif.Props.Order

/-!
# C07–C12, C17, C59–C61: comparison and boolean builtins
-/

namespace Expreduce
open Ex

/-! ### C07 -/

/-- C07. `a === a` and symmetry, for all expressions. -/
theorem C07_refl_symm (a b : Ex) : isSameQ a a = true ∧ isSameQ a b = isSameQ b a := by
  have hb : ∀ x y : UInt64, (x == y) = (y == x) := by
    intro x y
    by_cases h : x = y
    · subst h; rfl
    · have h' : ¬ y = x := fun e => h e.symm
      simp [h, h']
  constructor
  · unfold isSameQ
    split
    · split
      · rename_i i j h1 h2
        rw [h1] at h2; cases h2
        simp [almostEqual]
      · simp
    · simp
  · cases a <;> cases b <;> simp only [isSameQ] <;> try exact hb _ _
    split <;> split <;> rename_i h1 h2 <;> simp_all [almostEqual_comm]

/-- `a` is not a machine real. -/
def NotReal (a : Ex) : Prop := ∀ v, a ≠ .flt v

theorem isSameQ_notReal {a b : Ex} (h : NotReal a ∨ NotReal b) : isSameQ a b = (hash a == hash b) := by
  unfold isSameQ
  split
  · rename_i x y
    rcases h with h | h
    · exact absurd rfl (h x)
    · exact absurd rfl (h y)
  · rfl

/-- C07 (part). `===` is transitive on expressions that are not themselves machine reals. -/
theorem C07_trans_partial (a b c : Ex) (ha : NotReal a) (hb : NotReal b)
    (h1 : isSameQ a b = true) (h2 : isSameQ b c = true) : isSameQ a c = true := by
  rw [isSameQ_notReal (.inl ha)] at *
  rw [isSameQ_notReal (.inl hb)] at h2
  simp at *
  exact h1.trans h2

theorem wrap64_id (n : Int) (h1 : -2 ^ 63 ≤ n) (h2 : n < 2 ^ 63) : wrap64 n = n := by unfold wrap64; omega

/-- C07. Two nonnegative machine reals of double range are `===` exactly if no double lies strictly between them; the
same for their negatives; reals of different sign are never `===`. -/
theorem C07_reals (x y : Rat) (hx : IsDouble x) (hy : IsDouble y) (h0 : 0 ≤ x) (h : x < y) :
    (isSameQ (.flt x) (.flt y) = true ↔ ¬ ∃ z, IsDouble z ∧ x < z ∧ z < y) ∧
    (0 < x → (isSameQ (.flt (-x)) (.flt (-y)) = true ↔ ¬ ∃ z, IsDouble z ∧ x < z ∧ z < y)) ∧
    isSameQ (.flt x) (.flt (-y)) = false := by
  have b1 := f64mag_bounds hx h0
  have b2 := f64mag_bounds hy (h0.trans h.le)
  have hy0 : 0 < y := lt_of_le_of_lt h0 h
  have hyp := f64mag_pos hy hy0
  have key := f64mag_adjacent hx hy h0 h
  have hlt := f64mag_lt hx hy h0 h
  have fx : f64bits x = some (f64mag x) := by
    unfold f64bits
    rw [abs_of_nonneg h0, if_neg (by omega), if_neg (not_lt.2 h0)]
  have fy : f64bits y = some (f64mag y) := by
    unfold f64bits
    rw [abs_of_pos hy0, if_neg (by omega), if_neg (not_lt.2 hy0.le)]
  have fny : f64bits (-y) = some (f64mag y - 2 ^ 63) := by
    unfold f64bits
    rw [abs_neg, abs_of_pos hy0, if_neg (by omega), if_pos (by linarith)]
  refine ⟨?_, ?_, ?_⟩
  · rw [← key]
    simp only [isSameQ, fx, fy, almostEqual, Bool.or_eq_true, beq_iff_eq, Bool.and_eq_true, decide_eq_true_eq]
    have w := wrap64_id (f64mag x - f64mag y) (by omega) (by omega)
    have e : f64mag x - 2 ^ 63 - (f64mag y - 2 ^ 63) = f64mag x - f64mag y := by ring
    simp only [e, w]
    omega
  · intro hxp
    have fnx : f64bits (-x) = some (f64mag x - 2 ^ 63) := by
      unfold f64bits
      rw [abs_neg, abs_of_pos hxp, if_neg (by omega), if_pos (by linarith)]
    rw [← key]
    simp only [isSameQ, fnx, fny, almostEqual, Bool.or_eq_true, beq_iff_eq, Bool.and_eq_true, decide_eq_true_eq]
    have w := wrap64_id (f64mag x - f64mag y) (by omega) (by omega)
    have e : f64mag x - 2 ^ 63 - (f64mag y - 2 ^ 63) = f64mag x - f64mag y := by ring
    simp only [e, w]
    omega
  · simp only [isSameQ, fx, fny, almostEqual, Bool.or_eq_false_iff, beq_eq_false_iff_ne, Bool.and_eq_false_iff, decide_eq_false_iff_not]
    refine ⟨by omega, ?_⟩
    unfold wrap64
    omega

/-- The double `1 + k/2^52`. -/
def onePlus (k : Int) : Rat := ((2 ^ 52 + k : Int) : Rat) * (2 : Rat) ^ (-52 : Int)

theorem onePlus_double (k : Int) (h0 : 0 ≤ k) (h1 : k < 2 ^ 52) : IsDouble (onePlus k) :=
  ⟨2 ^ 52 + k, -52, by omega, by omega, by omega, by omega, rfl⟩

theorem onePlus_lt {j k : Int} (h : j < k) : onePlus j < onePlus k := by
  unfold onePlus
  apply mul_lt_mul_of_pos_right _ (two_zpow_pos _)
  exact Int.cast_lt.2 (by omega)

theorem onePlus_mag (k : Int) (h0 : 0 ≤ k) (h1 : k < 2 ^ 52) : f64mag (onePlus k) = 1023 * 2 ^ 52 + k := by
  have hp : 0 < onePlus k := mul_pos (Int.cast_pos.2 (by omega)) (two_zpow_pos _)
  have hl : ilog2 (onePlus k) = 0 := by
    apply ilog2_unique _ hp.ne'
    · rw [abs_of_pos hp]
      have := mul_le_mul_of_nonneg_right (c52 (m := 2 ^ 52 + k) (by omega)) (two_zpow_pos (-52)).le
      rw [← zpow_add₀ (by norm_num)] at this
      simpa [onePlus] using this
    · rw [abs_of_pos hp]
      have := mul_lt_mul_of_pos_right (c53 (m := 2 ^ 52 + k) (by omega)) (two_zpow_pos (-52))
      rw [← zpow_add₀ (by norm_num)] at this
      exact this
  obtain ⟨M, e1, a2, a3, a4, a5, a6, a7⟩ := double_norm (onePlus_double k h0 h1) hp
  have hq : dq (onePlus k) = -52 := by unfold dq; rw [hl]; omega
  rw [hq] at e1 a5
  have := mul_right_cancel₀ (two_zpow_pos (-52)).ne' e1
  have : 2 ^ 52 + k = M := Int.cast_injective this
  rw [a5]; omega

/-- C07 is false for machine reals: `1 === 1+ulp`, `1+ulp === 1+2ulp`, but not `1 === 1+2ulp`. -/
theorem C07_not_transitive : isSameQ (.flt (onePlus 0)) (.flt (onePlus 1)) = true ∧
    isSameQ (.flt (onePlus 1)) (.flt (onePlus 2)) = true ∧ isSameQ (.flt (onePlus 0)) (.flt (onePlus 2)) = false := by
  have hd := fun k a b => onePlus_double k a b
  have p0 : (0 : Rat) ≤ onePlus 0 := mul_nonneg (by norm_num) (two_zpow_pos _).le
  have p1 : (0 : Rat) ≤ onePlus 1 := mul_nonneg (by norm_num) (two_zpow_pos _).le
  have h01 := (C07_reals _ _ (hd 0 (by omega) (by omega)) (hd 1 (by omega) (by omega)) p0 (onePlus_lt (by omega))).1
  have h12 := (C07_reals _ _ (hd 1 (by omega) (by omega)) (hd 2 (by omega) (by omega)) p1 (onePlus_lt (by omega))).1
  have h02 := (C07_reals _ _ (hd 0 (by omega) (by omega)) (hd 2 (by omega) (by omega)) p0 (onePlus_lt (by omega))).1
  have m := fun k a b => onePlus_mag k a b
  refine ⟨?_, ?_, ?_⟩
  · rw [h01, ← f64mag_adjacent (hd 0 (by omega) (by omega)) (hd 1 (by omega) (by omega)) p0 (onePlus_lt (by omega)),
      m 0 (by omega) (by omega), m 1 (by omega) (by omega)]; omega
  · rw [h12, ← f64mag_adjacent (hd 1 (by omega) (by omega)) (hd 2 (by omega) (by omega)) p1 (onePlus_lt (by omega)),
      m 1 (by omega) (by omega), m 2 (by omega) (by omega)]; omega
  · rw [← Bool.not_eq_true, h02, not_not]
    exact ⟨_, hd 1 (by omega) (by omega), onePlus_lt (by omega), onePlus_lt (by omega)⟩

/-! ### C08 -/

theorem encParts_append (as bs : List Ex) : encParts (as ++ bs) = encParts as ++ encParts bs := by
  induction as with
  | nil => rfl
  | cons a as ih => simp [encParts, ih, List.append_assoc]

/-- C08 (part). If `a === b` and neither is a machine real, they can be exchanged in any argument position. -/
theorem C08_substitutive_partial (a b : Ex) (ha : NotReal a) (h : isSameQ a b = true) (pre post : List Ex) :
    isSameQ (.expr (pre ++ a :: post)) (.expr (pre ++ b :: post)) = true := by
  rw [isSameQ_notReal (.inl ha)] at h
  rw [isSameQ_notReal (.inl (by intro v; simp))]
  simp only [beq_iff_eq] at *
  unfold hash at *
  simp only [enc, encParts_append, encParts, h]

theorem onePlus_gob0 : gobFloat 0 (onePlus 0) = [1, 10, 0, 0, 0, 53, 0, 0, 0, 1, 128, 0, 0, 0, 0, 0, 0, 0] := by decide +kernel

theorem onePlus_gob1 : gobFloat 0 (onePlus 1) = [1, 10, 0, 0, 0, 53, 0, 0, 0, 1, 128, 0, 0, 0, 0, 0, 8, 0] := by decide +kernel

/-- C08 is false for machine reals: `1. === 1.+ulp`, but `{1.} === {1.+ulp}` is false. -/
theorem C08_not_substitutive : isSameQ (.flt (onePlus 0)) (.flt (onePlus 1)) = true ∧
    isSameQ (.expr [S "List", .flt (onePlus 0)]) (.expr [S "List", .flt (onePlus 1)]) = false := by
  refine ⟨C07_not_transitive.1, ?_⟩
  rw [isSameQ_notReal (.inl (by intro v; simp))]
  simp only [hash, enc, encParts, onePlus_gob0, onePlus_gob1]
  decide +kernel

/-- C08: even two reals of the same value and precision can differ inside an expression: the encoding contains the rounding
direction of the operation that produced them (`0.1*10.` against `1.`). -/
theorem C08_accuracy_in_fingerprint :
    fnv1a ([195, 244, 76, 249, 227, 115, 88, 251] ++ gobFloat 0 (onePlus 0)) ≠
    fnv1a ([195, 244, 76, 249, 227, 115, 88, 251] ++ gobFloat 1 (onePlus 0)) := by
  decide +kernel

/-! ### C09 -/

/-- C09 (part). If two expressions without rational and real numbers have the same fingerprint, then they are equal, or two of
their subexpressions with different encodings collide under FNV-1a. -/
theorem C09_reduction_partial (a b : Ex) (ha : NoRatReal a) (hb : NoRatReal b) (h : hash a = hash b) :
    a = b ∨ ∃ u v, Occurs u a ∧ Occurs v b ∧ enc u ≠ enc v ∧ hash u = hash v := by
  induction a using Ex.ind generalizing b with
  | hsym s =>
    by_cases he : enc (.sym s) = enc b
    · left
      cases b <;> simp [enc] at he
      rw [bytes_inj' he]
    · exact .inr ⟨_, _, .here, .here, he, h⟩
  | hstr s =>
    by_cases he : enc (.str s) = enc b
    · left
      cases b <;> simp [enc] at he
      rw [bytes_inj' he]
    · exact .inr ⟨_, _, .here, .here, he, h⟩
  | hint n =>
    by_cases he : enc (.int n) = enc b
    · left
      cases b <;> simp [enc] at he
      rw [gobInt_inj he]
    · exact .inr ⟨_, _, .here, .here, he, h⟩
  | hrat n d => exact absurd .here (ha.1 n d)
  | hflt v => exact absurd .here (ha.2 v)
  | hcplx r i ihr ihi =>
    by_cases he : enc (.cplx r i) = enc b
    · cases b with
      | cplx r' i' =>
        simp only [enc, List.append_cancel_left_eq] at he
        obtain ⟨h1, h2⟩ := List.append_inj he (by rw [le64_length, le64_length])
        rcases ihr r' ⟨fun n d o => ha.1 n d (.re _ _ o), fun v o => ha.2 v (.re _ _ o)⟩
          ⟨fun n d o => hb.1 n d (.re _ _ o), fun v o => hb.2 v (.re _ _ o)⟩ (hash_inj_le64 h1) with rfl | ⟨u, v, o1, o2, o3⟩
        · rcases ihi i' ⟨fun n d o => ha.1 n d (.im _ _ o), fun v o => ha.2 v (.im _ _ o)⟩
            ⟨fun n d o => hb.1 n d (.im _ _ o), fun v o => hb.2 v (.im _ _ o)⟩ (hash_inj_le64 h2) with rfl | ⟨u, v, o1, o2, o3⟩
          · exact .inl rfl
          · exact .inr ⟨u, v, .im _ _ o1, .im _ _ o2, o3⟩
        · exact .inr ⟨u, v, .re _ _ o1, .re _ _ o2, o3⟩
      | _ => simp [enc] at he
    · exact .inr ⟨_, _, .here, .here, he, h⟩
  | hexpr ps ih =>
    by_cases he : enc (.expr ps) = enc b
    · cases b with
      | expr qs =>
        simp only [enc, List.append_cancel_left_eq] at he
        have hf := encParts_inj he
        have key : ps = qs ∨ ∃ p ∈ ps, ∃ q ∈ qs, ∃ u v, Occurs u p ∧ Occurs v q ∧ enc u ≠ enc v ∧ hash u = hash v := by
          have gp : ∀ p ∈ ps, NoRatReal p := fun p hp => ⟨fun n d o => ha.1 n d (.part _ _ hp o), fun v o => ha.2 v (.part _ _ hp o)⟩
          have gq : ∀ q ∈ qs, NoRatReal q := fun p hp => ⟨fun n d o => hb.1 n d (.part _ _ hp o), fun v o => hb.2 v (.part _ _ hp o)⟩
          clear he h ha hb
          induction hf with
          | nil => exact .inl rfl
          | @cons p q ps qs hpq hr ihr =>
            rcases ih p (by simp) q (gp p (by simp)) (gq q (by simp)) hpq with rfl | ⟨u, v, o⟩
            · rcases ihr (fun x hx => ih x (by simp [hx])) (fun x hx => gp x (by simp [hx])) (fun x hx => gq x (by simp [hx])) with rfl | ⟨p', hp', q', hq', o⟩
              · exact .inl rfl
              · exact .inr ⟨p', by simp [hp'], q', by simp [hq'], o⟩
            · exact .inr ⟨p, by simp, q, by simp, u, v, o⟩
        rcases key with rfl | ⟨p, hp, q, hq, u, v, o1, o2, o3⟩
        · exact .inl rfl
        · exact .inr ⟨u, v, .part _ _ hp o1, .part _ _ hq o2, o3⟩
      | _ => simp [enc] at he
    · exact .inr ⟨_, _, .here, .here, he, h⟩

example : NoRatReal (.expr [S "Plus", .int 3, .cplx (.int 1) (.int 2), .sym "x"]) := by
  constructor
  · intro n d h
    cases h with
    | part _ p hp o =>
      simp at hp
      rcases hp with rfl | rfl | rfl | rfl <;> cases o <;> rename_i o <;> cases o
  · intro v h
    cases h with
    | part _ p hp o =>
      simp at hp
      rcases hp with rfl | rfl | rfl | rfl <;> cases o <;> rename_i o <;> cases o

theorem beBytes_one (a : Nat) (h0 : 1 ≤ a) (h1 : a < 256) : beBytes a = [UInt8.ofNat a] := by
  unfold beBytes
  rw [leBytes_succ _ _ (by omega), show a / 256 = 0 by omega, leBytes_zero, show a % 256 = a by omega]
  rfl

theorem beBytes_three (a b c : Nat) (h0 : 1 ≤ a) (h1 : a < 256) (hb : b < 256) (hc : c < 256) :
    beBytes (a * 65536 + b * 256 + c) = [UInt8.ofNat a, UInt8.ofNat b, UInt8.ofNat c] := by
  have hl : 16 ≤ (a * 65536 + b * 256 + c).log2 := by
    rw [Nat.le_log2 (by omega)]; omega
  obtain ⟨f, hf⟩ := Nat.exists_eq_add_of_le hl
  unfold beBytes
  rw [hf, show 16 + f + 1 = (14 + f) + 1 + 1 + 1 by ring, leBytes_succ _ _ (by omega), leBytes_succ _ _ (by omega), leBytes_succ _ _ (by omega)]
  rw [show (a * 65536 + b * 256 + c) / 256 / 256 / 256 = 0 by omega, leBytes_zero,
    show (a * 65536 + b * 256 + c) % 256 = c by omega, show (a * 65536 + b * 256 + c) / 256 % 256 = b by omega,
    show (a * 65536 + b * 256 + c) / 256 / 256 % 256 = a by omega]
  rfl

/-- C09 is false for rational numbers, whatever the hash function: numerator and denominator are written without separator. All
the pairs `a/(65536 b + 512 + c)` and `(65536 a + 512 + b)/c` have the same encoding, so `SameQ` cannot tell them apart, not even
inside larger expressions. -/
theorem C09_rationals_collide (a b c : Nat) (ha : 1 ≤ a ∧ a < 256) (hb : 1 ≤ b ∧ b < 256) (hc : 1 ≤ c ∧ c < 256) :
    let x := Ex.rat a (b * 65536 + 2 * 256 + c : Nat)
    let y := Ex.rat (a * 65536 + 2 * 256 + b : Nat) c
    enc x = enc y ∧ isSameQ x y = true ∧ ∀ f, isSameQ (.expr [f, x]) (.expr [f, y]) = true := by
  intro x y
  have he : enc x = enc y := by
    have g : ∀ n : Nat, gobInt (n : Int) = 2 :: beBytes n := by
      intro n; unfold gobInt; rw [if_neg (by omega)]; simp
    simp only [x, y, enc, g]
    rw [beBytes_one a ha.1 ha.2, beBytes_one c hc.1 hc.2, beBytes_three b 2 c hb.1 hb.2 (by omega) hc.2,
      beBytes_three a 2 b ha.1 ha.2 (by omega) hb.2]
    rfl
  have hs : isSameQ x y = true := by
    rw [isSameQ_notReal (.inl (by intro v; simp [x]))]
    simp [hash, he]
  exact ⟨he, hs, fun f => C08_substitutive_partial x y (by intro v; simp [x]) hs [f] []⟩

/-- C09 (test): `1/66051 === 66049/3`, both in lowest terms. -/
example : isSameQ (.rat 1 66051) (.rat 66049 3) = true ∧ Nat.Coprime 66049 3 ∧ ((1 : Rat) / 66051 ≠ 66049 / 3) := by
  refine ⟨(C09_rationals_collide 1 1 3 (by omega) (by omega) (by omega)).2.1, by decide, by norm_num⟩

/-! ### C10, C11 -/

/-- C10 (part). `a == b` is `True` exactly if `b == a` is. -/
theorem C10_true_symmetric_partial (fmt : Rat → String) (a b : Ex) : isEqual fmt a b = .yes ↔ isEqual fmt b a = .yes := by
  suffices h : ∀ a b : Ex, isEqual fmt a b = .yes → isEqual fmt b a = .yes from ⟨h a b, h b a⟩
  have vi : ∀ b v, v ≠ Verdict.yes → (vIf b v = .yes ↔ b = true) := by
    intro b v hv; unfold vIf; split <;> simp_all
  intro a
  induction a using Ex.ind with
  | hcplx r i ihr ihi =>
    intro b h
    cases b <;> simp only [isEqual, reduceCtorEq] at h
    rw [vi _ _ (by simp)] at h
    simp only [Bool.and_eq_true, beq_iff_eq] at h
    simp only [isEqual]
    rw [vi _ _ (by simp)]
    simp [ihr _ h.1, ihi _ h.2]
  | hexpr ps ih =>
    intro b h
    cases b with
    | expr qs =>
      simp only [isEqual] at *
      split at h
      · simp at h
      · rename_i hl
        rw [vi _ _ (by simp)] at h
        have hl' : ¬ qs.length ≠ ps.length := by simpa using (not_not.1 hl).symm
        rw [if_neg hl', vi _ _ (by simp)]
        clear hl hl'
        induction ps generalizing qs with
        | nil => cases qs <;> rfl
        | cons p ps ihp =>
          cases qs with
          | nil => rfl
          | cons q qs =>
            simp only [isEqualParts, Bool.and_eq_true, beq_iff_eq] at *
            exact ⟨ih p (by simp) q h.1, ihp (fun x hx => ih x (by simp [hx])) qs h.2⟩
    | _ => simp [isEqual] at h
  | hsym s =>
    intro b h
    cases b with
    | sym t =>
      simp only [isEqual] at *
      split at h
      · simp at h
      · split at h
        · simp at h
        · rename_i h1 h2
          rw [vi _ _ (by simp)] at h
          have : s = t := by simpa using h
          subst this
          rw [if_neg h1, if_neg h2]; simp [vIf]
    | _ => simp [isEqual] at h
  | hstr _ | hint _ | hrat _ _ | hflt _ =>
    intro b h
    cases b <;> simp only [isEqual, reduceCtorEq] at * <;> rw [vi _ _ (by simp)] at * <;> simp_all

/-- C10 is false: `1/2 == 1` is `False` but `1 == 1/2` stays unevaluated; `"a" == x` is `False` but `x == "a"` stays
unevaluated; `1/2 == 0.5` is `False` although the values are equal. -/
theorem C10_not_symmetric (fmt : Rat → String) :
    isEqual fmt (.rat 1 2) (.int 1) = .no ∧ isEqual fmt (.int 1) (.rat 1 2) = .unk ∧
    isEqual fmt (.str "a") (.sym "x") = .no ∧ isEqual fmt (.sym "x") (.str "a") = .unk ∧
    isEqual fmt (.rat 1 2) (.flt (1 / 2)) = .no ∧ realVal (.rat 1 2) = realVal (.flt (1 / 2)) := by
  refine ⟨rfl, rfl, rfl, rfl, rfl, by simp [realVal]⟩

/-- C10. The direction of a verdict matters in no other way: `a == b` never says `True` when `b == a` says `False`. -/
theorem C10_no_contradiction (fmt : Rat → String) (a b : Ex) (h : isEqual fmt a b = .yes) : isEqual fmt b a ≠ .no := by
  rw [(C10_true_symmetric_partial fmt a b).1 h]; simp

/-- The kinds of expressions for which `Equal` answers `False` against every other kind: strings, rationals, complex numbers. -/
def DismissiveKind : Ex → Bool
  | .str _ | .rat _ _ | .cplx _ _ => true
  | _ => false

/-- C10. The verdict of `a == b` depends on the direction only if exactly one side is a string, rational or complex
number; an unknown or `False` verdict on any other pair is the same in both directions. -/
theorem C10_verdict_symmetric_partial (fmt : Rat → String) (a b : Ex)
    (h : (DismissiveKind a = false ∧ DismissiveKind b = false) ∨ (DismissiveKind a = true ∧ DismissiveKind b = true)) :
    isEqual fmt a b = isEqual fmt b a := by
  have key : ∀ v : Verdict, v ≠ .yes → (isEqual fmt a b = .yes ∨ isEqual fmt a b = v) →
      (isEqual fmt b a = .yes ∨ isEqual fmt b a = v) → isEqual fmt a b = isEqual fmt b a := by
    intro v _ h1 h2
    have hs := C10_true_symmetric_partial fmt a b
    rcases h1 with h1 | h1
    · rw [h1, hs.1 h1]
    · rcases h2 with h2 | h2
      · rw [h2, hs.2 h2]
      · rw [h1, h2]
  have vi : ∀ (x : Bool) (v : Verdict), vIf x v = .yes ∨ vIf x v = v := by
    intro x v; cases x <;> simp [vIf]
  cases a <;> cases b <;> simp only [DismissiveKind, reduceCtorEq, and_true, and_false, or_self, and_self, or_false, false_or] at h <;>
    first
    | (simp only [isEqual]; done)
    | (refine key .unk (by simp) ?_ ?_ <;> (simp only [isEqual]; first | exact vi _ _ | exact Or.inr rfl | done))
    | (refine key .no (by simp) ?_ ?_ <;> (simp only [isEqual]; first | exact vi _ _ | exact Or.inr rfl | done))
    | (refine key .unk (by simp) ?_ ?_ <;> (simp only [isEqual]; split <;> first | exact Or.inr rfl | exact vi _ _))
    | (rename_i x y
       simp only [isEqual]
       by_cases h1 : x = y
       · subst h1; rfl
       · have e1 : (x == y) = false := by simpa using h1
         have e2 : (y == x) = false := by simpa using Ne.symm h1
         simp only [e1, e2, vIf]
         by_cases h2 : x = "System`False" ∧ y = "System`True"
         · have h3 : ¬ (y = "System`False" ∧ x = "System`True") := by rintro ⟨r1, r2⟩; rw [h2.1] at r2; simp at r2
           rw [if_pos h2, if_neg h3, if_pos ⟨h2.2, h2.1⟩]
         · by_cases h3 : x = "System`True" ∧ y = "System`False"
           · rw [if_neg h2, if_pos h3, if_pos ⟨h3.2, h3.1⟩]
           · rw [if_neg h2, if_neg h3, if_neg (fun r : y = "System`False" ∧ x = "System`True" => h3 ⟨r.2, r.1⟩),
               if_neg (fun r : y = "System`True" ∧ x = "System`False" => h2 ⟨r.2, r.1⟩)])

/-- Both cases of the hypothesis occur, with a verdict that is not `True`. -/
example (fmt : Rat → String) : isEqual fmt (.int 1) (.flt 2) = .unk ∧ isEqual fmt (.str "a") (.rat 1 2) = .no ∧
    DismissiveKind (.int 1) = false ∧ DismissiveKind (.flt 2) = false ∧ DismissiveKind (.str "a") = true ∧ DismissiveKind (.rat 1 2) = true := by
  refine ⟨?_, rfl, rfl, rfl, rfl, rfl⟩
  have h : (rnd53 ((1 : Int) : Rat) == (2 : Rat)) = false := by decide +kernel
  simp only [isEqual, h, vIf, Bool.false_eq_true, if_false]

/-- C11. On expressions without reals, `a == b` is `True` exactly if `a` and `b` are the same expression. -/
theorem C11_true_iff (fmt : Rat → String) (a b : Ex) (ha : ∀ v, ¬ Occurs (.flt v) a) (hb : ∀ v, ¬ Occurs (.flt v) b) :
    isEqual fmt a b = .yes ↔ a = b := by
  have vi : ∀ b v, v ≠ Verdict.yes → (vIf b v = .yes ↔ b = true) := by
    intro b v hv; unfold vIf; split <;> simp_all
  induction a using Ex.ind generalizing b with
  | hsym s =>
    cases b <;> simp only [isEqual, reduceCtorEq]
    rename_i t
    constructor
    · intro h
      split at h
      · simp at h
      · split at h
        · simp at h
        · rw [vi _ _ (by simp)] at h; simpa using h
    · intro h
      cases h
      rw [if_neg (by rintro ⟨h1, h2⟩; rw [h1] at h2; simp at h2), if_neg (by rintro ⟨h1, h2⟩; rw [h1] at h2; simp at h2)]
      simp [vIf]
  | hstr s => cases b <;> simp only [isEqual, reduceCtorEq]; rw [vi _ _ (by simp)]; simp
  | hint n =>
    cases b <;> simp only [isEqual, reduceCtorEq]
    · rw [vi _ _ (by simp)]; simp
    · exact absurd .here (hb _)
  | hrat n d => cases b <;> simp only [isEqual, reduceCtorEq]; rw [vi _ _ (by simp)]; simp
  | hflt v => exact absurd .here (ha v)
  | hcplx r i ihr ihi =>
    cases b <;> simp only [isEqual, reduceCtorEq]
    rw [vi _ _ (by simp)]
    simp [ihr _ (fun v o => ha v (.re _ _ o)) (fun v o => hb v (.re _ _ o)),
      ihi _ (fun v o => ha v (.im _ _ o)) (fun v o => hb v (.im _ _ o))]
  | hexpr ps ih =>
    cases b with
    | expr qs =>
      have pa : ∀ p ∈ ps, ∀ v, ¬ Occurs (.flt v) p := fun p hp v o => ha v (.part _ _ hp o)
      have pb : ∀ p ∈ qs, ∀ v, ¬ Occurs (.flt v) p := fun p hp v o => hb v (.part _ _ hp o)
      simp only [isEqual]
      by_cases hl : ps.length = qs.length
      · rw [if_neg (by simpa using hl), vi _ _ (by simp)]
        simp only [Ex.expr.injEq]
        clear ha hb
        induction ps generalizing qs with
        | nil => cases qs <;> simp_all [isEqualParts]
        | cons p ps ihp =>
          cases qs with
          | nil => simp at hl
          | cons q qs =>
            simp only [isEqualParts, Bool.and_eq_true, beq_iff_eq, List.cons.injEq]
            have e1 : isEqual fmt p q = .yes ↔ p = q := ih p (by simp) q (pa p (by simp)) (pb q (by simp))
            have e2 : isEqualParts fmt ps qs = true ↔ ps = qs := ihp (fun x hx => ih x (by simp [hx])) qs (fun x hx => pa x (by simp [hx])) (fun x hx => pb x (by simp [hx])) (by simpa using hl)
            rw [e1, e2]
      · rw [if_pos hl]
        simp only [reduceCtorEq, Ex.expr.injEq, false_iff]
        rintro rfl; exact hl rfl
    | _ => simp [isEqual]

section
variable {K : Type _} [Field K] [CharZero K]

/-- C11. A verdict `False` between two normalised exact numbers is right: their values differ; and `True` means equal values. -/
theorem C11_exact_numbers (fmt : Rat → String) (ρ : Ex → K) (iu : K) (hi : iu * iu = -1) (a b : Ex) (ha : CanonNum a) (hb : CanonNum b) :
    (isEqual fmt a b = .no → value ρ iu a ≠ value ρ iu b) ∧ (isEqual fmt a b = .yes → value ρ iu a = value ρ iu b) := by
  have nf : ∀ e : Ex, CanonNum e → ∀ v, ¬ Occurs (.flt v) e := by
    intro e he v o
    cases o with
    | here => simp [CanonNum, CanonReal] at he
    | re r i o => cases r <;> simp [CanonNum, CanonReal] at he <;> cases o
    | im r i o => cases i <;> simp [CanonNum, CanonReal] at he <;> cases o
    | part ps p hp o => simp [CanonNum, CanonReal] at he
  have h := C11_true_iff fmt a b (nf a ha) (nf b hb)
  constructor
  · intro hno hv
    have := h.2 (CanonNum.ext ρ iu hi ha hb hv)
    rw [hno] at this; simp at this
  · intro hy; rw [h.1 hy]

end

example : CanonNum (.cplx (.rat 1 2) (.int 3)) ∧ CanonNum (.rat 1 2) := by simp [CanonNum, CanonReal]

/-! ### C12 -/

/-- The 53-bit value a real number is compared by. -/
def rounded : Ex → Rat
  | .int n => rnd53 n
  | .rat n d => rnd53 (n / d)
  | .flt v => v
  | _ => 0

theorem exOrder_flt (x y : Rat) : exOrder (.flt x) (.flt y) = cmpRat y x := by
  rw [exOrder_numbers (a := .flt x) (b := .flt y) rfl rfl]
  unfold thenI; split
  · rfl
  · simp_all [numTie, tieI, asInt]

theorem numToN_real {a : Ex} (h : realNum a = true) : numToN a = .flt (rounded a) := by
  cases a <;> simp [realNum] at h <;> rfl

theorem comparison_loop_reals (expected : List Int) (R : Rat → Rat → Prop) [DecidableRel R] (ht : ∀ x y z, R x y → R y z → R x z)
    (hR : ∀ x y, expected.contains (cmpRat y x) = decide (R x y)) (args : List Ex) (ha : ∀ a ∈ args, realNum a = true) (x : Rat) :
    comparisonLoop numToN expected (some (.flt x)) args = some (decide (List.Pairwise R (x :: args.map rounded))) := by
  induction args generalizing x with
  | nil => simp [comparisonLoop]
  | cons a as ih =>
    have hn : (numToN a).numberQ = true := by rw [numToN_real (ha a (by simp))]; rfl
    have ih' := ih (fun b hb => ha b (by simp [hb])) (rounded a)
    rw [comparisonLoop]
    simp only [hn, Bool.not_true, Bool.false_eq_true, if_false]
    rw [numToN_real (ha a (by simp)), exOrder_flt, hR, ih']
    have key : List.Pairwise R (x :: (a :: as).map rounded) ↔ R x (rounded a) ∧ List.Pairwise R (rounded a :: as.map rounded) := by
      rw [List.map_cons, List.pairwise_cons]
      constructor
      · rintro ⟨h1, h2⟩; exact ⟨h1 _ (by simp), h2⟩
      · rintro ⟨h1, h2⟩
        refine ⟨?_, h2⟩
        intro y hy
        rcases List.mem_cons.1 hy with rfl | hy
        · exact h1
        · exact ht _ _ _ h1 ((List.pairwise_cons.1 h2).1 y hy)
    by_cases hr : R x (rounded a)
    · simp only [hr, decide_true, Bool.not_true, Bool.false_eq_true, if_false]
      congr 1
      apply decide_eq_decide.2
      rw [key]; simp [hr]
    · simp only [hr, decide_false, Bool.not_false, if_true]
      congr 1
      symm
      rw [decide_eq_false_iff_not, key]; simp [hr]

theorem comparison_reals (expected : List Int) (R : Rat → Rat → Prop) [DecidableRel R] (ht : ∀ x y z, R x y → R y z → R x z)
    (hR : ∀ x y, expected.contains (cmpRat y x) = decide (R x y)) (args : List Ex) (ha : ∀ a ∈ args, realNum a = true) :
    comparisonFn numToN expected args = some (decide (List.Pairwise R (args.map rounded))) := by
  unfold comparisonFn
  cases args with
  | nil => simp [comparisonLoop]
  | cons a as =>
    have hn : (numToN a).numberQ = true := by rw [numToN_real (ha a (by simp))]; rfl
    rw [comparisonLoop]
    simp only [hn, Bool.not_true, Bool.false_eq_true, if_false]
    rw [numToN_real (ha a (by simp)), comparison_loop_reals expected R ht hR as (fun b hb => ha b (by simp [hb]))]
    rfl

/-- C12. On real numbers (integers, rationals, machine reals), `Less`, `LessEqual`, `Greater`, `GreaterEqual` with any number of
arguments answer `True` exactly if the 53-bit roundings are strictly increasing, non-decreasing, strictly decreasing, non-increasing, and `False`
otherwise. -/
theorem C12_reals (args : List Ex) (ha : ∀ a ∈ args, realNum a = true) :
    lessEval numToN args = some (decide ((args.map rounded).Pairwise (· < ·))) ∧
    lessEqualEval numToN args = some (decide ((args.map rounded).Pairwise (· ≤ ·))) ∧
    greaterEval numToN args = some (decide ((args.map rounded).Pairwise (· > ·))) ∧
    greaterEqualEval numToN args = some (decide ((args.map rounded).Pairwise (· ≥ ·))) := by
  have h : ∀ x y : Rat, cmpRat y x = -1 ∧ y < x ∨ cmpRat y x = 0 ∧ y = x ∨ cmpRat y x = 1 ∧ x < y := by
    intro x y
    have := cmpRat_cases y x
    tauto
  refine ⟨comparison_reals [1] (· < ·) (fun _ _ _ => lt_trans) ?_ args ha, comparison_reals [1, 0] (· ≤ ·) (fun _ _ _ => le_trans) ?_ args ha,
    comparison_reals [-1] (· > ·) (fun _ _ _ a b => gt_trans a b) ?_ args ha, comparison_reals [-1, 0] (· ≥ ·) (fun _ _ _ a b => ge_trans a b) ?_ args ha⟩
  all_goals
    intro x y
    rcases h x y with ⟨h1, h2⟩ | ⟨h1, h2⟩ | ⟨h1, h2⟩ <;> rw [h1]
  all_goals first
    | (have h3 := h2.le; have h4 := not_lt.2 h2.le; have h5 := not_le.2 h2; simp [h2, h3, h4, h5])
    | (subst h2; simp)

/-- C12. For integers of magnitude at most `2^53` the verdict is the exact one. -/
theorem C12_small_integers (a b : Int) (ha : |a| ≤ 2 ^ 53) (hb : |b| ≤ 2 ^ 53) :
    lessEval numToN [.int a, .int b] = some (decide (a < b)) ∧ lessEqualEval numToN [.int a, .int b] = some (decide (a ≤ b)) ∧
    greaterEval numToN [.int a, .int b] = some (decide (a > b)) ∧ greaterEqualEval numToN [.int a, .int b] = some (decide (a ≥ b)) := by
  obtain ⟨h1, h2, h3, h4⟩ := C12_reals [.int a, .int b] (by simp [realNum])
  rw [h1, h2, h3, h4]
  simp [rounded, rnd53_int_exact a ha, rnd53_int_exact b hb]

/-- C12. A verdict `True` of `Less` between exact numbers is right at any magnitude (rounding is monotone). -/
theorem C12_less_true_sound (a b : Ex) (ha : realNum a = true) (hb : realNum b = true) (na : NotReal a) (nb : NotReal b)
    (h : lessEval numToN [a, b] = some true) : ∃ x y, realVal a = some x ∧ realVal b = some y ∧ x < y := by
  rw [(C12_reals [a, b] (by simp [ha, hb])).1] at h
  have h : rounded a < rounded b := by simpa using h
  have key : ∀ e : Ex, realNum e = true → NotReal e → ∃ x, realVal e = some x ∧ rounded e = rnd53 x := by
    intro e he hne
    cases e <;> simp [realNum] at he
    · exact ⟨_, rfl, rfl⟩
    · exact ⟨_, rfl, rfl⟩
    · exact absurd rfl (hne _)
  obtain ⟨x, hx, hx'⟩ := key a ha na
  obtain ⟨y, hy, hy'⟩ := key b hb nb
  refine ⟨x, y, hx, hy, ?_⟩
  by_contra hc
  have := rnd53_mono (not_lt.1 hc)
  rw [hx', hy'] at h
  linarith

theorem rnd53_2_53_1 : rnd53 ((2 ^ 53 + 1 : Int) : Rat) = (2 ^ 53 : Int) := by
  have hl : Int.log 2 |((2 ^ 53 + 1 : Int) : Rat)| = 53 := by
    rw [abs_of_pos (by norm_num)]
    have := (Int.log_natCast (R := Rat) 2 (2 ^ 53 + 1))
    have h2 : Nat.log 2 (2 ^ 53 + 1) = 53 := by
      rw [Nat.log_eq_iff (by norm_num)]; norm_num
    rw [h2] at this
    push_cast at this ⊢
    exact this
  unfold rnd53 ulp53
  rw [hl, if_neg (by norm_num)]
  have : ((2 ^ 53 + 1 : Int) : Rat) / (2 : Rat) ^ ((53 : Int) - 52) = ((2 ^ 52 : Int) : Rat) + 1 / 2 := by norm_num
  rw [this]
  have hf : ⌊((2 ^ 52 : Int) : Rat) + 1 / 2⌋ = 2 ^ 52 := by
    rw [Int.floor_eq_iff]; constructor <;> norm_num
  unfold rne
  simp only [hf]
  norm_num

/-- C12. Above `2^53` trichotomy fails: for `a = 2^53`, `b = 2^53 + 1` none of `a < b`, `a > b`, `a == b` is `True` (although
`a <= b` and `a >= b` both are). -/
theorem C12_no_trichotomy (fmt : Rat → String) :
    let a := Ex.int (2 ^ 53); let b := Ex.int (2 ^ 53 + 1)
    lessEval numToN [a, b] = some false ∧ greaterEval numToN [a, b] = some false ∧ equalEval fmt [a, b] = some false ∧
    lessEqualEval numToN [a, b] = some true ∧ greaterEqualEval numToN [a, b] = some true := by
  intro a b
  obtain ⟨h1, h2, h3, h4⟩ := C12_reals [a, b] (by simp [a, b, realNum])
  rw [h1, h2, h3, h4]
  have e1 : rounded a = (2 ^ 53 : Int) := rnd53_int_exact _ (by norm_num)
  have e2 : rounded b = (2 ^ 53 : Int) := rnd53_2_53_1
  simp only [List.map_cons, List.map_nil, e1, e2]
  refine ⟨by simp, by simp, ?_, by simp, by simp⟩
  simp [equalEval, equalLoop, isEqual, vIf, a, b]

/-- C12. Complex numbers are compared by their real parts: `5 I < 1` is `True`, and `I <= 2 I` and `2 I <= I` are both `True`. -/
theorem C12_complex_by_real_part : lessEval numToN [.cplx (.int 0) (.int 5), .int 1] = some true ∧
    lessEqualEval numToN [.cplx (.int 0) (.int 1), .cplx (.int 0) (.int 2)] = some true ∧
    lessEqualEval numToN [.cplx (.int 0) (.int 2), .cplx (.int 0) (.int 1)] = some true := by
  have r0 : rnd53 (0 : Rat) = 0 := by simp [rnd53]
  have r1 : rnd53 (1 : Rat) = 1 := by have := rnd53_int_exact 1 (by norm_num); simpa using this
  have e1 : exOrder (.cplx (.int 0) (.int 5)) (.flt 1) = 1 :=
    (C03_number_order (.cplx (.int 0) (.int 5)) (.flt 1) 0 1 (by simp [toFlt, r0]) rfl).1 (by norm_num)
  have e2 : ∀ i j : Int, exOrder (.cplx (.int 0) (.int i)) (.cplx (.int 0) (.int j)) = 0 := fun i j =>
    (C03_number_order (.cplx (.int 0) (.int i)) (.cplx (.int 0) (.int j)) 0 0 (by simp [toFlt, r0]) (by simp [toFlt, r0])).2.2.2.2.1 rfl rfl rfl
  refine ⟨?_, ?_, ?_⟩
  · simp [lessEval, comparisonFn, comparisonLoop, numToN, Ex.numberQ, r1, e1]
  · simp [lessEqualEval, comparisonFn, comparisonLoop, numToN, Ex.numberQ, e2]
  · simp [lessEqualEval, comparisonFn, comparisonLoop, numToN, Ex.numberQ, e2]

/-! ### C61: several arguments -/

/-- C61. `Equal` is `True` exactly if the first argument is found equal to all others, `False` exactly if no comparison with the
first is undecided and one fails. -/
theorem C61_equal (fmt : Rat → String) (a : Ex) (as : List Ex) :
    (equalEval fmt (a :: as) = some true ↔ ∀ b ∈ as, isEqual fmt a b = .yes) ∧
    (equalEval fmt (a :: as) = some false ↔ (∀ b ∈ as, isEqual fmt a b ≠ .unk) ∧ ∃ b ∈ as, isEqual fmt a b = .no) := by
  have key : ∀ acc, (equalLoop fmt a acc as = some true ↔ acc = true ∧ ∀ b ∈ as, isEqual fmt a b = .yes) ∧
      (equalLoop fmt a acc as = some false ↔ (∀ b ∈ as, isEqual fmt a b ≠ .unk) ∧ (acc = false ∨ ∃ b ∈ as, isEqual fmt a b = .no)) := by
    induction as with
    | nil => intro acc; simp [equalLoop]
    | cons b bs ih =>
      intro acc
      rw [equalLoop]
      cases h : isEqual fmt a b with
      | unk => simp [h]
      | yes =>
        have := ih (acc && Verdict.yes == Verdict.yes)
        simp only [this]
        simp [h]
      | no =>
        have := ih (acc && Verdict.no == Verdict.yes)
        simp only [this]
        simp [h]
  constructor
  · rw [equalEval, (key true).1]; simp
  · rw [equalEval, (key true).2]; simp

/-- C61. `SameQ` is `True` exactly if all arguments are the same as the first; `UnsameQ` exactly if no two arguments at different positions
are the same. -/
theorem C61_sameQ (a : Ex) (as : List Ex) :
    (sameQEval (a :: as) = true ↔ ∀ b ∈ as, isSameQ a b = true) ∧
    (unsameQEval (a :: as) = true ↔ (a :: as).Pairwise (fun x y => isSameQ x y = false)) := by
  constructor
  · have key : ∀ acc, as.foldl (fun acc b => acc && isSameQ a b) acc = true ↔ acc = true ∧ ∀ b ∈ as, isSameQ a b = true := by
      induction as with
      | nil => simp
      | cons b bs ih => intro acc; rw [List.foldl_cons, ih]; simp [and_assoc]
    rw [sameQEval, key]; simp
  · generalize a :: as = l
    induction l with
    | nil => simp [unsameQEval]
    | cons x xs ih => rw [unsameQEval, List.pairwise_cons, Bool.and_eq_true, ih]; simp

/-! ### C17 -/

/-- Truth value of an expression under an assignment `ρ` of truth values to undetermined expressions. -/
def truth (ρ : Ex → Bool) (e : Ex) : Bool :=
  if e = S "True" then true else if e = S "False" then false else ρ e

theorem truth_eval_and {σ : Type} (ev : Ex → σ → Ex × σ) (ρ : Ex → Bool) (hev : ∀ e s, truth ρ (ev e s).1 = truth ρ e)
    (stop : Ex) (b : Bool) (hs : (stop = S "False" ∧ b = true) ∨ (stop = S "True" ∧ b = false)) (args : List Ex) (s : σ) :
    match (boolLoop ev stop args s).1 with
    | none => ∃ a ∈ args, truth ρ a = !b
    | some xs => ((∀ x ∈ xs, truth ρ x = b) ↔ ∀ a ∈ args, truth ρ a = b) := by
  have t1 : truth ρ (S "True") = true := by simp [truth]
  have t2 : truth ρ (S "False") = false := by
    have : S "False" ≠ S "True" := by decide
    simp [truth, this]
  induction args generalizing s with
  | nil => simp [boolLoop]
  | cons a as ih =>
    have ih := ih (ev a s).2
    have he := hev a s
    rw [boolLoop]
    simp only
    by_cases hb : booleanQ (ev a s).1 = true
    · rw [if_pos hb]
      have hb' : (ev a s).1 = S "False" ∨ (ev a s).1 = S "True" := by simpa [booleanQ] using hb
      by_cases hst : (ev a s).1 = stop
      · rw [if_pos hst]
        simp only
        refine ⟨a, by simp, ?_⟩
        rw [← he, hst]
        rcases hs with ⟨rfl, rfl⟩ | ⟨rfl, rfl⟩ <;> simp [t1, t2]
      · rw [if_neg hst]
        have hab : truth ρ a = b := by
          rw [← he]
          rcases hs with ⟨rfl, rfl⟩ | ⟨rfl, rfl⟩ <;> rcases hb' with h | h <;> simp_all
        generalize boolLoop ev stop as (ev a s).2 = t at ih
        cases h : t.1 with
        | none => simp only [h] at ih; obtain ⟨x, hx, hx'⟩ := ih; exact ⟨x, by simp [hx], hx'⟩
        | some xs => 
          simp only [h] at ih
          have ih' : (∀ x ∈ xs, truth ρ x = b) ↔ ∀ a ∈ as, truth ρ a = b := ih
          simp only; rw [ih', List.forall_mem_cons]; simp [hab]
    · rw [if_neg hb]
      generalize boolLoop ev stop as (ev a s).2 = t at ih
      cases h : t.1 with
      | none => simp only [h] at ih; obtain ⟨x, hx, hx'⟩ := ih; exact ⟨x, by simp [hx], hx'⟩
      | some xs => 
        simp only [h] at ih
        have ih' : (∀ x ∈ xs, truth ρ x = b) ↔ ∀ a ∈ as, truth ρ a = b := ih
        simp only [Option.map_some]; rw [List.forall_mem_cons, List.forall_mem_cons, ih', he]

/-- C17. If evaluation preserves truth values, the result of `And` (`Or`) has the truth value of the conjunction (disjunction) of the
arguments under every assignment `ρ` that reads unevaluated `And[...]` (`Or[...]`) as conjunction (disjunction). -/
theorem C17_and_or_sound {σ : Type} (ev : Ex → σ → Ex × σ) (ρ : Ex → Bool) (hev : ∀ e s, truth ρ (ev e s).1 = truth ρ e)
    (hand : ∀ xs, ρ (.expr (S "And" :: xs)) = xs.all (truth ρ)) (hor : ∀ xs, ρ (.expr (S "Or" :: xs)) = xs.any (truth ρ))
    (args : List Ex) (s : σ) :
    truth ρ (andEval ev args s).1 = args.all (truth ρ) ∧ truth ρ (orEval ev args s).1 = args.any (truth ρ) := by
  have t1 : truth ρ (S "True") = true := by simp [truth]
  have t2 : truth ρ (S "False") = false := by
    have : S "False" ≠ S "True" := by decide
    simp [truth, this]
  have te : ∀ h xs, truth ρ (.expr (S h :: xs)) = ρ (.expr (S h :: xs)) := by intro h xs; simp [truth, S]
  constructor
  · have h := truth_eval_and ev ρ hev (S "False") true (.inl ⟨rfl, rfl⟩) args s
    unfold andEval
    simp only
    cases hr : (boolLoop ev (S "False") args s).1 with
    | none =>
      rw [hr] at h
      obtain ⟨a, ha, ha'⟩ := h
      rw [boolFinish, t2]
      symm; rw [List.all_eq_false]; exact ⟨a, ha, by simpa using ha'⟩
    | some xs =>
      rw [hr] at h
      simp only at h
      have : args.all (truth ρ) = xs.all (truth ρ) := by
        rw [Bool.eq_iff_iff, List.all_eq_true, List.all_eq_true]; exact h.symm
      rw [this]
      match xs with
      | [] => rw [boolFinish, t1]; rfl
      | [x] => rw [boolFinish]; simp
      | x :: y :: zs => rw [boolFinish, te, hand] <;> simp
  · have h := truth_eval_and ev ρ hev (S "True") false (.inr ⟨rfl, rfl⟩) args s
    unfold orEval
    simp only
    cases hr : (boolLoop ev (S "True") args s).1 with
    | none =>
      rw [hr] at h
      obtain ⟨a, ha, ha'⟩ := h
      rw [boolFinish, t1]
      symm; rw [List.any_eq_true]; exact ⟨a, ha, by simpa using ha'⟩
    | some xs =>
      rw [hr] at h
      simp only at h
      have : args.any (truth ρ) = xs.any (truth ρ) := by
        rw [Bool.eq_iff_iff, ← not_iff_not, Bool.not_eq_true, Bool.not_eq_true, List.any_eq_false, List.any_eq_false]
        simp only [Bool.not_eq_true]
        exact h.symm
      rw [this]
      match xs with
      | [] => rw [boolFinish, t2]; rfl
      | [x] => rw [boolFinish]; simp
      | x :: y :: zs => rw [boolFinish, te, hor] <;> simp

/-- Evaluate the expressions one after the other; the results and the final state. -/
def evalSeq {σ : Type} (ev : Ex → σ → Ex × σ) : List Ex → σ → List Ex × σ
  | [], s => ([], s)
  | a :: as, s => ((ev a s).1 :: (evalSeq ev as (ev a s).2).1, (evalSeq ev as (ev a s).2).2)

/-- C17. `And` evaluates its arguments left to right up to and including the first one that evaluates to `False`, and nothing after it; if there
is such an argument the answer is `False`. The same for `Or` with `True`. -/
theorem C17_short_circuit {σ : Type} (ev : Ex → σ → Ex × σ) (pre post : List Ex) (a : Ex) (s : σ) :
    (S "False" ∉ (evalSeq ev pre s).1 → (ev a (evalSeq ev pre s).2).1 = S "False" →
      andEval ev (pre ++ a :: post) s = (S "False", (evalSeq ev (pre ++ [a]) s).2)) ∧
    (S "True" ∉ (evalSeq ev pre s).1 → (ev a (evalSeq ev pre s).2).1 = S "True" →
      orEval ev (pre ++ a :: post) s = (S "True", (evalSeq ev (pre ++ [a]) s).2)) ∧
    (S "False" ∉ (evalSeq ev pre s).1 → (andEval ev pre s).2 = (evalSeq ev pre s).2) ∧
    (S "True" ∉ (evalSeq ev pre s).1 → (orEval ev pre s).2 = (evalSeq ev pre s).2) := by
  have key : ∀ (stop : Ex), booleanQ stop = true → ∀ pre s, stop ∉ (evalSeq ev pre s).1 → (ev a (evalSeq ev pre s).2).1 = stop →
      boolLoop ev stop (pre ++ a :: post) s = (none, (evalSeq ev (pre ++ [a]) s).2) := by
    intro stop hstop pre
    induction pre with
    | nil =>
      intro s _ h
      simp only [evalSeq, List.nil_append] at *
      rw [boolLoop]
      simp only [h, hstop, if_true]
    | cons p ps ih =>
      intro s hn h
      simp only [evalSeq, List.mem_cons, not_or] at hn
      have := ih (ev p s).2 hn.2 h
      rw [List.cons_append, boolLoop]
      simp only [this]
      have hne : ¬ (ev p s).1 = stop := fun e => hn.1 e.symm
      simp only [hne, if_false, Option.map_none, ite_self]
      rfl
  have key2 : ∀ (stop : Ex), ∀ pre s, stop ∉ (evalSeq ev pre s).1 → (boolLoop ev stop pre s).2 = (evalSeq ev pre s).2 := by
    intro stop pre
    induction pre with
    | nil => intro s _; rfl
    | cons p ps ih =>
      intro s hn
      simp only [evalSeq, List.mem_cons, not_or] at hn
      have := ih (ev p s).2 hn.2
      rw [boolLoop]
      have hne : ¬ (ev p s).1 = stop := fun e => hn.1 e.symm
      simp only [hne, if_false, evalSeq]
      split <;> exact this
  refine ⟨?_, ?_, ?_, ?_⟩
  · intro h1 h2; unfold andEval; rw [key _ (by decide) pre s h1 h2]; rfl
  · intro h1 h2; unfold orEval; rw [key _ (by decide) pre s h1 h2]; rfl
  · intro h1; exact key2 _ pre s h1
  · intro h1; exact key2 _ pre s h1

/-- C17. `Not` of one argument negates decided truth values and is otherwise left alone. -/
theorem C17_not (ρ : Ex → Bool) (a : Ex) (hnot : ∀ x, ρ (.expr [S "Not", x]) = !truth ρ x) :
    truth ρ (notEval [a]) = !truth ρ a := by
  have h : S "False" ≠ S "True" := by decide
  simp only [notEval]
  by_cases h1 : a = S "True"
  · simp [h1, h, truth]
  · by_cases h2 : a = S "False"
    · simp [h2, h, truth]
    · have e1 : Ex.expr [S "Not", a] ≠ S "True" := by simp [S]
      have e2 : Ex.expr [S "Not", a] ≠ S "False" := by simp [S]
      rw [if_neg h1, if_neg h2]
      conv_lhs => rw [truth, if_neg e1, if_neg e2, hnot]

/-- C17 (test): the hypotheses hold for an evaluator that decides `p` only. -/
example : (andEval (fun e (n : Nat) => (if e = .sym "p" then S "False" else e, n + 1)) [.sym "q", .sym "p", .sym "r"] 0)
    = (S "False", 2) := by decide

/-! ### C59, C60: Max and Min -/

theorem takeWhile_numbers (nums rest : List Ex) (hn : ∀ a ∈ nums, a.numberQ = true) (hr : ∀ x, rest.head? = some x → x.numberQ = false) :
    firstNonNumber (nums ++ rest) = nums.length + 1 := by
  unfold firstNonNumber
  induction nums with
  | nil =>
    cases rest with
    | nil => rfl
    | cons x xs => simp [hr x rfl]
  | cons a as ih =>
    have := ih (fun b hb => hn b (by simp [hb]))
    simp [hn a (by simp)] at *
    exact this

/-- C59. On sorted arguments consisting of numbers and then other expressions, `Max` keeps the last of the numbers
and the others, `Min` the first of the numbers and the others. -/
theorem C59_step (nums : List Ex) (a : Ex) (rest : List Ex) (hn : ∀ x ∈ a :: nums, x.numberQ = true)
    (hr : ∀ x, rest.head? = some x → x.numberQ = false) (hl : 2 ≤ (a :: nums ++ rest).length) :
    maxEval (a :: nums ++ rest) = .expr (S "Max" :: (a :: nums).getLast (by simp) :: rest) ∧
    minEval (a :: nums ++ rest) = .expr (S "Min" :: a :: rest) := by
  have hf := takeWhile_numbers (a :: nums) rest hn hr
  constructor
  · rw [List.cons_append] at *
    cases hx : nums ++ rest with
    | nil => simp [hx] at hl
    | cons y ys =>
      rw [hx] at hf
      rw [maxEval, hf]
      · simp only [List.length_cons, Nat.add_sub_cancel]
        rw [← hx, show S "Max" :: a :: (nums ++ rest) = (S "Max" :: (a :: nums).dropLast) ++ ((a :: nums).getLast (by simp) :: rest) by
          have := List.dropLast_append_getLast (l := a :: nums) (by simp)
          rw [List.cons_append, ← List.singleton_append (l := rest), ← List.append_assoc, this]; rfl]
        rw [List.drop_left' (by simp)]
      all_goals simp
  · rw [List.cons_append] at *
    cases hx : nums ++ rest with
    | nil => simp [hx] at hl
    | cons y ys =>
      rw [hx] at hf
      rw [minEval, hf]
      · rw [if_neg (by simp)]
        rw [← hx, show S "Min" :: a :: (nums ++ rest) = (S "Min" :: a :: nums) ++ rest by simp]
        rw [List.drop_left' (by simp)]
      all_goals simp

/-- C59. `Max` of integers is the greatest, `Min` the least: for any result of the library sort, one or two steps of the builtin reach
it. -/
theorem C59_integers (ns : List Int) (hne : ns ≠ []) (sorted : List Ex) (hs : SortContract exLess (ns.map .int) sorted) :
    (∃ m ∈ ns, (∀ k ∈ ns, k ≤ m) ∧ (maxEval sorted = .int m ∨ maxEval sorted = .expr [S "Max", .int m]) ∧ maxEval [.int m] = .int m) ∧
    (∃ m ∈ ns, (∀ k ∈ ns, m ≤ k) ∧ (minEval sorted = .int m ∨ minEval sorted = .expr [S "Min", .int m]) ∧ minEval [.int m] = .int m) := by
  obtain ⟨hp, hsort⟩ := hs
  have hdom : ∀ x ∈ ns.map Ex.int, HeadOnly x := by
    intro x hx; obtain ⟨n, _, rfl⟩ := List.mem_map.1 hx; exact .int n
  have hsorted := hsort (exOrder_strictWeak (fun x hx => (hdom x hx).dom))
  have hint : ∀ x ∈ sorted, ∃ n ∈ ns, x = .int n := by
    intro x hx
    obtain ⟨n, hn, rfl⟩ := List.mem_map.1 (hp.mem_iff.1 hx)
    exact ⟨n, hn, rfl⟩
  have hmem : ∀ n ∈ ns, Ex.int n ∈ sorted := fun n hn => hp.mem_iff.2 (List.mem_map_of_mem hn)
  have hle : ∀ m n : Int, exLess (.int n) (.int m) = false → m ≤ n := by
    intro m n h
    simp only [exLess, exOrder_int] at h
    by_contra hc
    have : cmpInt m n = 1 := by unfold cmpInt; rw [if_neg (by omega), if_neg (by omega)]
    rw [this] at h; simp at h
  cases hsd : sorted with
  | nil =>
    exfalso
    rw [hsd] at hp
    have := hp.length_eq
    simp at this
    exact hne (List.length_eq_zero_iff.1 this.symm)
  | cons a rest =>
    rw [hsd] at hsorted hint hmem
    obtain ⟨n0, hn0, ha⟩ := hint a (by simp)
    have hlast : (a :: rest).getLast (by simp) ∈ a :: rest := List.getLast_mem _
    obtain ⟨nl, hnl, hl⟩ := hint _ hlast
    have hmax : ∀ k ∈ ns, k ≤ nl := by
      intro k hk
      have hk' := hmem k hk
      have hd := List.dropLast_append_getLast (l := a :: rest) (by simp)
      rw [← hd] at hsorted hk'
      rw [List.pairwise_append] at hsorted
      rcases List.mem_append.1 hk' with h | h
      · have := hsorted.2.2 _ h _ (List.mem_singleton.2 rfl)
        rw [hl] at this
        exact hle _ _ this
      · rw [List.mem_singleton, hl] at h
        have : k = nl := by simpa using h
        omega
    have hmin : ∀ k ∈ ns, n0 ≤ k := by
      intro k hk
      have hk' := hmem k hk
      rw [List.pairwise_cons] at hsorted
      rcases List.mem_cons.1 hk' with h | h
      · rw [ha] at h
        have : k = n0 := by simpa using h
        omega
      · have := hsorted.1 _ h
        rw [ha] at this
        exact hle _ _ this
    have hnum : ∀ x ∈ a :: rest, x.numberQ = true := by
      intro x hx; obtain ⟨n, _, rfl⟩ := hint x hx; rfl
    refine ⟨⟨nl, hnl, hmax, ?_, rfl⟩, ⟨n0, hn0, hmin, ?_, rfl⟩⟩
    · cases rest with
      | nil => left; rw [maxEval]; simpa using hl
      | cons b bs =>
        right
        have := (C59_step (b :: bs) a [] hnum (by simp) (by simp)).1
        rw [List.append_nil] at this
        rw [this, hl]
    · cases rest with
      | nil => left; rw [minEval]; exact ha
      | cons b bs =>
        right
        have := (C59_step (b :: bs) a [] hnum (by simp) (by simp)).2
        rw [List.append_nil] at this
        rw [this, ha]

/-- C60. `Max` of two or more arguments none of which is a number never reaches a fixed point: however the arguments are
reordered between steps, after `k` steps the expression has `k` more arguments than at the start (so evaluating `Max[a, b]` does not end). -/
theorem C60_max_diverges (l : Nat → List Ex) (h2 : 2 ≤ (l 0).length) (h0 : ∀ a ∈ l 0, a.numberQ = false)
    (hstep : ∀ k args, maxEval (l k) = .expr (S "Max" :: args) → (l (k + 1)).Perm args) (k : Nat) :
    (l k).length = (l 0).length + k ∧ maxEval (l k) ≠ .expr (S "Max" :: l k) := by
  have step : ∀ m : List Ex, 2 ≤ m.length → (∀ a ∈ m, a.numberQ = false) → maxEval m = .expr (S "Max" :: S "Max" :: m) := by
    intro m h2 h0
    have hf := takeWhile_numbers [] m (by simp) (fun x hx => h0 x (List.mem_of_mem_head? hx))
    match m, h2, hf with
    | a :: b :: c, _, hf =>
      simp only [List.nil_append] at hf
      rw [maxEval, hf]
      · rfl
      all_goals simp
  have inv : ∀ k, (l k).length = (l 0).length + k ∧ ∀ a ∈ l k, a.numberQ = false := by
    intro k
    induction k with
    | zero => exact ⟨rfl, h0⟩
    | succ k ih =>
      have hp := hstep k _ (step (l k) (by omega) ih.2)
      refine ⟨by rw [hp.length_eq, List.length_cons, ih.1]; rfl, ?_⟩
      intro a ha
      rcases List.mem_cons.1 (hp.mem_iff.1 ha) with rfl | h
      · rfl
      · exact ih.2 a h
  refine ⟨(inv k).1, ?_⟩
  rw [step (l k) (by have := (inv k).1; omega) (inv k).2]
  intro h
  have := congrArg (fun e => match e with | Ex.expr ps => ps.length | _ => 0) h
  simp at this

/-- C60: the hypotheses are met by `Max[a, b]`. -/
example : ∃ l : Nat → List Ex, l 0 = [.sym "a", .sym "b"] ∧
    ∀ k args, maxEval (l k) = .expr (S "Max" :: args) → (l (k + 1)).Perm args :=
  ⟨fun k => Nat.rec [.sym "a", .sym "b"] (fun _ m => match maxEval m with | .expr (_ :: args) => args | _ => []) k, rfl, by
    intro k args h; simp only [h]; exact .refl _⟩

end Expreduce
