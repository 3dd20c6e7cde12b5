import Verif.Proofs.Algebra2

/-! The builtin functions, one by one. -/

namespace Expreduce
open Ex

section
variable (V : Interp) {H : String → Prop}

theorem related_of {e e' : Ex} (h : hasHead "System`Sequence" e = false) (h' : hasHead "System`Sequence" e' = false)
    (hv : ∀ v, V.meaning.val e = some v → V.meaning.val e' = some v) : Related V.meaning Refines e e' := by
  unfold Related
  rw [Meaning.argVals_one _ h, Meaning.argVals_one _ h']
  exact .cons hv .nil

theorem plus_related (toN : Ex → Ex) (hp : H "System`Plus") (ht : H "System`Times") {args : List Ex} (ha : ∀ a ∈ args, FragFree H a) (hc : NoClash args)
    (hi : ImagClean (plusEval toN args)) : FragFree H (plusEval toN args) ∧
      ∀ v, V.meaning.val (.expr (.sym "System`Plus" :: args)) = some v → V.meaning.val (plusEval toN args) = some v := by
  have h0 := built_plain hp ht (plusEval_built plain_open toN ha) hi
  refine ⟨h0, fun v hv => ?_⟩
  obtain ⟨h1, h2⟩ := strict V (fun a h => (ha a h).2) hv
  have h3 := (built_defined V (plusEval_built (defined_open V) toN (fun a h => ⟨(ha a h).1, (ha a h).2, h1 a h⟩))).2
  obtain ⟨w, hw⟩ := Option.isSome_iff_exists.1 h3
  rw [hw, ← value_of_val V h0.1 h0.2 hw, (plusEval_ok V.others Complex.I toN Complex.I_mul_I (fun a h => frag_exact (ha a h).1) hc).2]
  have h4 := value_of_val V (.app (s := "System`Plus") hp (fun a h => (ha a h).1)) (seqFree_app (by decide) (fun a h => (ha a h).2)) hv
  rw [← h4]
  congr 1
  exact (value_plus V.others Complex.I args).symm

theorem times_related (toN : Ex → Ex) (hp : H "System`Plus") (ht : H "System`Times") {args : List Ex} (ha : ∀ a ∈ args, FragFree H a)
    (hi : ImagClean (timesEval toN args)) : FragFree H (timesEval toN args) ∧
      ∀ v, V.meaning.val (.expr (.sym "System`Times" :: args)) = some v → V.meaning.val (timesEval toN args) = some v := by
  have hinf : (∃ a ∈ args, isInfinite a = true) → ∀ v, V.meaning.val (.expr (.sym "System`Times" :: args)) ≠ some v := by
    rintro ⟨a, h1, h2⟩ v hv
    have h3 := (strict V (fun a h => (ha a h).2) hv).1 a h1
    have h4 : V.meaning.val a = none := by
      simp only [isInfinite, Bool.or_eq_true, decide_eq_true_eq] at h2
      rcases h2 with (rfl | rfl) | rfl <;> rfl
    rw [h4] at h3
    cases h3
  rcases timesEval_built plain_open toN ha with ⟨h1, h2⟩ | h1
  · rw [h1]
    exact ⟨⟨.sym _, seqFree_sym _⟩, fun v hv => absurd hv (hinf h2 v)⟩
  have h0 := built_plain hp ht h1 hi
  refine ⟨h0, fun v hv => ?_⟩
  obtain ⟨h1, h2⟩ := strict V (fun a h => (ha a h).2) hv
  rcases timesEval_built (defined_open V) toN (fun a h => ⟨(ha a h).1, (ha a h).2, h1 a h⟩) with ⟨_, h3⟩ | h3
  · exact absurd hv (hinf h3 v)
  obtain ⟨w, hw⟩ := Option.isSome_iff_exists.1 (built_defined V h3).2
  rcases timesEval_ok V.others Complex.I toN Complex.I_mul_I (fun a h => frag_exact (ha a h).1) with ⟨_, h5, _⟩ | h5
  · exact absurd hv (hinf h5 v)
  rw [hw, ← value_of_val V h0.1 h0.2 hw, h5.2]
  have h4 := value_of_val V (.app (s := "System`Times") ht (fun a h => (ha a h).1)) (seqFree_app (by decide) (fun a h => (ha a h).2)) hv
  rw [← h4]
  congr 1
  exact (value_times V.others Complex.I args).symm

theorem val_args2 {s : String} {a b : Ex} (ha : hasHead "System`Sequence" a = false) (hb : hasHead "System`Sequence" b = false) :
    V.meaning.val (.expr [.sym s, a, b]) = V.meaning.op s [V.meaning.val a, V.meaning.val b] := by
  rw [Meaning.val_app, Meaning.vals_map]
  · rfl
  · intro e he; simp at he; rcases he with rfl | rfl <;> assumption

theorem op_two (s : String) (x y : ℂ) : V.meaning.op s [some x, some y] = arithValue V s [x, y] := meaning_op_some V s [x, y]

theorem rational_fn (hr : H "System`Rational") {args : List Ex} (ha : ∀ a ∈ args, FragFree H a) (hi : ImagClean (rationalFn args)) :
    FragFree H (rationalFn args) ∧
      ∀ v, V.meaning.val (.expr (.sym "System`Rational" :: args)) = some v → V.meaning.val (rationalFn args) = some v := by
  unfold rationalFn at hi ⊢
  split
  · rename_i n d
    by_cases hd : d = 0
    · subst hd
      have : ∃ s, evalRational n 0 = .sym s := by
        unfold evalRational
        split
        · exact ⟨_, rfl⟩
        · exact ⟨_, rfl⟩
      obtain ⟨s, hs⟩ := this
      rw [hs]
      refine ⟨⟨.sym _, seqFree_sym _⟩, fun v hv => ?_⟩
      rw [val_args2 V rfl rfl, val_int, val_int, op_two, arith_rational] at hv
      simp at hv
    · have h1 : ExactNum (evalRational n d) := canon_num (ExactNum.evalNumber_canon (e := .rat n d) hd)
      refine ⟨⟨frag_num h1 hi, seqFree_num h1⟩, fun v hv => ?_⟩
      rw [val_args2 V rfl rfl, val_int, val_int, op_two, arith_rational, if_neg (by exact_mod_cast hd)] at hv
      rw [(val_num V h1 (fun _ => 0)).1, value_evalRational _ _ n d hd]
      exact hv
  · exact ⟨⟨.app hr (fun a h => (ha a h).1), seqFree_app (by decide) (fun a h => (ha a h).2)⟩, fun v hv => hv⟩

theorem realAtom_exact {e : Ex} (h : realAtom e = true) (hf : Frag H e) : ExactReal e := by
  cases hf <;> simp [realAtom] at h
  · trivial
  · assumption

theorem complex_fn (hr : H "System`Complex") {args : List Ex} (ha : ∀ a ∈ args, FragFree H a) (hi : ImagClean (complexFn args)) :
    FragFree H (complexFn args) ∧
      ∀ v, V.meaning.val (.expr (.sym "System`Complex" :: args)) = some v → V.meaning.val (complexFn args) = some v := by
  have hself : ∀ args : List Ex, (∀ a ∈ args, FragFree H a) → FragFree H (.expr (S "Complex" :: args)) ∧
      ∀ v, V.meaning.val (.expr (.sym "System`Complex" :: args)) = some v → V.meaning.val (.expr (S "Complex" :: args)) = some v :=
    fun args ha => ⟨⟨.app hr (fun a h => (ha a h).1), seqFree_app (by decide) (fun a h => (ha a h).2)⟩, fun v hv => hv⟩
  unfold complexFn at hi ⊢
  split
  · rename_i re im
    simp only at hi
    split
    · rename_i hra
      rw [if_pos hra] at hi
      simp only [Bool.and_eq_true] at hra
      have h1 := realAtom_exact hra.1 (ha re (by simp)).1
      have h2 := realAtom_exact hra.2 (ha im (by simp)).1
      have hx : ExactNum (.cplx re im) := ⟨h1, h2⟩
      have h3 : ExactNum (evalComplex re im) := canon_num (ExactNum.evalNumber_canon (e := .cplx re im) hx)
      refine ⟨⟨frag_num h3 hi, seqFree_num h3⟩, fun v hv => ?_⟩
      rw [val_args2 V (ha re (by simp)).2.self (ha im (by simp)).2.self, (val_real V h1 (fun _ => 0)).1, (val_real V h2 (fun _ => 0)).1, op_two, arith_complex] at hv
      rw [(val_num V h3 (fun _ => 0)).1, ← hv]
      have := ExactNum.value_evalNumber (fun _ => (0 : ℂ)) Complex.I (e := .cplx re im) hx
      have e : value (fun _ => (0 : ℂ)) Complex.I (.cplx re im) = value (fun _ => (0 : ℂ)) Complex.I re + Complex.I * value (fun _ => (0 : ℂ)) Complex.I im := by rw [value]
      rw [← e, ← this]
      rfl
    · exact hself _ ha
  · exact hself _ ha

/-! ### Powers -/

theorem powValue_intInt {b p : Int} {v : ℂ} (h : powValue (b : ℂ) (p : ℂ) = some v) : (b = 0 → 0 < p) ∧ v = (b : ℂ) ^ p := by
  unfold powValue at h
  split at h
  · rename_i hb
    split at h
    · rename_i hp
      have hp' : 0 < p := by
        have : ((p : ℂ)).re = (p : ℝ) := by simp
        rw [this] at hp
        exact_mod_cast hp
      refine ⟨fun _ => hp', ?_⟩
      cases h
      rw [hb, zero_zpow p (by omega)]
    · cases h
  · rename_i hb
    refine ⟨fun h0 => absurd (by rw [h0]; simp) hb, ?_⟩
    cases h
    exact Complex.cpow_intCast _ _

theorem powerIntInt_related (hr : H "System`Rational") {b p : Int} : FragFree H (powerIntInt b p) ∧
      ∀ v, V.meaning.val (.expr [.sym "System`Power", .int b, .int p]) = some v → V.meaning.val (powerIntInt b p) = some v := by
  have hint : ∀ k : Int, FragFree H (.int k) := fun k => ⟨.int k, seqFree_num (e := .int k) trivial⟩
  have key : ∀ v, V.meaning.val (.expr [.sym "System`Power", .int b, .int p]) = some v → (b = 0 → 0 < p) ∧ v = (b : ℂ) ^ p := by
    intro v hv
    rw [val_args2 V rfl rfl, val_int, val_int, op_two, arith_pow] at hv
    exact powValue_intInt hv
  unfold powerIntInt
  split
  · rename_i h1
    refine ⟨hint _, fun v hv => ?_⟩
    rw [(key v hv).2, h1, zpow_one, val_int]
  split
  · rename_i h1
    split
    · rename_i h2
      refine ⟨⟨.sym _, seqFree_sym _⟩, fun v hv => ?_⟩
      have := (key v hv).1 h2
      omega
    · refine ⟨hint _, fun v hv => ?_⟩
      rw [(key v hv).2, h1, zpow_zero, val_int]; simp
  split
  · rename_i h1
    refine ⟨hint _, fun v hv => ?_⟩
    rw [(key v hv).2, h1.2, val_int]
    simp [zero_zpow p (by omega)]
  split
  · rename_i h1
    refine ⟨hint _, fun v hv => ?_⟩
    rw [(key v hv).2, val_int]
    obtain ⟨k, hk⟩ : ∃ k : Nat, p = k := ⟨p.toNat, by omega⟩
    subst hk
    simp
  · rename_i h0 h1 h2 h3
    obtain ⟨k, hk⟩ : ∃ k : Nat, p = -(k : Int) := ⟨p.natAbs, by omega⟩
    subst hk
    have hna : (-(k : Int)).natAbs = k := by simp
    simp only [hna]
    have hv' : ∀ v, V.meaning.val (.expr [.sym "System`Power", .int b, .int (-(k : Int))]) = some v → v = 1 / ((b ^ k : Int) : ℂ) ∧ b ^ k ≠ 0 := by
      intro v hv
      obtain ⟨a1, a2⟩ := key v hv
      have hb : b ≠ 0 := fun h => by have := a1 h; omega
      refine ⟨?_, pow_ne_zero _ hb⟩
      rw [a2]; simp
    split
    · rename_i hn
      refine ⟨hint _, fun v hv => ?_⟩
      rw [(hv' v hv).1, hn, val_int]; simp
    split
    · rename_i hn
      refine ⟨hint _, fun v hv => ?_⟩
      rw [(hv' v hv).1, hn, val_int]; norm_num
    · refine ⟨⟨.app hr ?_, seqFree_app (by decide) ?_⟩, fun v hv => ?_⟩
      · intro a h; simp at h; rcases h with rfl | rfl <;> exact (hint _).1
      · intro a h; simp at h; rcases h with rfl | rfl <;> exact (hint _).2
      · have hS : S "Rational" = .sym "System`Rational" := rfl
        obtain ⟨a1, a2⟩ := hv' v hv
        rw [hS, val_args2 V rfl rfl, val_int, val_int, op_two, arith_rational, if_neg (by exact_mod_cast a2), a1]
        simp

theorem powAtom_frag (hp : H "System`Power") {e : Ex} (h : PowAtom e) : FragFree H e := by
  have hint : ∀ k : Int, FragFree H (.int k) := fun k => ⟨.int k, seqFree_num (e := .int k) trivial⟩
  cases h with
  | int k => exact hint k
  | rat h => exact ⟨.rat h, seqFree_num (e := .rat _ _) h⟩
  | powI b h =>
    refine ⟨.app hp ?_, seqFree_app (by decide) ?_⟩
    · intro a h; simp at h; rcases h with rfl | rfl <;> exact (hint _).1
    · intro a h; simp at h; rcases h with rfl | rfl <;> exact (hint _).2
  | powR b h h' =>
    refine ⟨.app hp ?_, seqFree_app (by decide) ?_⟩
    · intro a h; simp at h; rcases h with rfl | rfl
      · exact (hint _).1
      · exact .rat h'
    · intro a h; simp at h; rcases h with rfl | rfl
      · exact (hint _).2
      · exact seqFree_num (e := .rat _ _) h'

theorem powAtom_val {e : Ex} (h : PowAtom e) (hn : cval e ≠ 0) : V.meaning.val e = some (cval e) := by
  cases h with
  | int k => rw [val_int, cval]
  | rat h => rw [val_rat V h, cval]
  | @powI b q h =>
    have hS : S "Power" = .sym "System`Power" := rfl
    have hc : cval (.expr [S "Power", .int b, .int q]) = (b : ℂ) ^ (q : ℂ) := by
      simp [cval, cpow2, S]
    rw [hc] at hn ⊢
    rw [hS, val_args2 V rfl rfl, val_int, val_int, op_two, arith_pow]
    have hb : (b : ℂ) ≠ 0 := by
      intro h0
      rw [h0, Complex.zero_cpow (by exact_mod_cast h)] at hn
      exact hn rfl
    rw [powValue, if_neg hb]
  | @powR b q d h h' =>
    have hS : S "Power" = .sym "System`Power" := rfl
    have hc : cval (.expr [S "Power", .int b, .rat q d]) = (b : ℂ) ^ ((q : ℂ) / d) := by
      simp [cval, cpow2, S]
    rw [hc] at hn ⊢
    rw [hS, val_args2 V rfl rfl, val_int, val_rat V h', op_two, arith_pow]
    have hb : (b : ℂ) ≠ 0 := by
      intro h0
      rw [h0, Complex.zero_cpow (div_ne_zero (by exact_mod_cast h) (by exact_mod_cast h'))] at hn
      exact hn rfl
    rw [powValue, if_neg hb]

theorem cprod_val {l : List Ex} (hl : ∀ a ∈ l, PowAtom a) (hn : cprod l ≠ 0) : l.map V.meaning.val = (l.map cval).map some ∧ cprod l = (l.map cval).prod := by
  induction l with
  | nil => exact ⟨rfl, by simp [cprod]⟩
  | cons a l ih =>
    rw [cprod] at hn
    obtain ⟨h1, h2⟩ := ih (fun b hb => hl b (by simp [hb])) (right_ne_zero_of_mul hn)
    refine ⟨?_, by rw [cprod, h2]; simp⟩
    rw [List.map_cons, List.map_cons, List.map_cons, h1, powAtom_val V (hl a (by simp)) (left_ne_zero_of_mul hn)]

theorem powerIntRat_related (hp : H "System`Power") (ht : H "System`Times") {order : List (Nat × Int) → List (Nat × Int)} (ho : ∀ l, (order l).Perm l)
    {x m d : Int} (hd : CanonReal (.rat m d)) (hx : 0 ≤ x ∨ m = 1 ∨ m = -1) {f : Nat} {r : Ex} (hr : powerIntRat f order x m d.toNat = some r) :
    FragFree H r ∧ ∀ v, V.meaning.val (.expr [.sym "System`Power", .int x, .rat m d]) = some v → V.meaning.val r = some v := by
  simp only [CanonReal] at hd
  obtain ⟨n, rfl⟩ : ∃ n : Nat, d = n := ⟨d.toNat, by omega⟩
  have hn : 2 ≤ n := by omega
  have hm : m ≠ 0 := by
    rintro rfl
    simp at hd
    omega
  have hn0 : ((n : Nat) : Int) ≠ 0 := by omega
  rw [Int.toNat_natCast] at hr
  have hsh := powerIntRat_shape ho (by omega) hm hr
  have hfrag : FragFree H r := by
    rcases hsh with h | ⟨l, rfl, hl⟩
    · exact powAtom_frag hp h
    · exact ⟨.app ht (fun a h => (powAtom_frag hp (hl a h)).1), seqFree_app (by decide) (fun a h => (powAtom_frag hp (hl a h)).2)⟩
  refine ⟨hfrag, fun v hv => ?_⟩
  rw [val_args2 V rfl rfl, val_int, val_rat V hn0, op_two, arith_pow] at hv
  have hre : (((m : ℂ) / ((n : Int) : ℂ))).re = (m : ℝ) / (n : ℝ) := by
    have : ((m : ℂ) / ((n : Int) : ℂ)) = (((m : ℝ) / (n : ℝ) : ℝ) : ℂ) := by push_cast; rfl
    rw [this, Complex.ofReal_re]
  have hnpos : (0 : ℝ) < n := by exact_mod_cast (show 0 < n by omega)
  by_cases hx0 : x = 0
  · subst hx0
    unfold powValue at hv
    rw [if_pos (by simp), hre] at hv
    split at hv
    · rename_i hpos
      cases hv
      have hmp : 0 < m := by
        have := (div_pos_iff_of_pos_right hnpos).1 hpos
        exact_mod_cast this
      have hroot : powerIntRat f order 0 m n = some (if m = 1 then .int 0 else .expr [S "Power", .int 0, .int m]) := by
        have h1 : nthRoot f 0 n = some (some 0) := by simp [nthRoot]
        unfold powerIntRat at hr ⊢
        simp [h1]
      rw [hroot] at hr
      cases hr
      split
      · rw [val_int]; simp
      · have hS : S "Power" = .sym "System`Power" := rfl
        rw [hS, val_args2 V rfl rfl, val_int, val_int, op_two, arith_pow]
        unfold powValue
        rw [if_pos (by simp), if_pos (by simpa using hmp)]
    · cases hv
  · have hxc : (x : ℂ) ≠ 0 := by exact_mod_cast hx0
    have hval := powerIntRat_value order ho x m n hn (by
      rcases hx with h | h
      · exact .inl ⟨h, .inl hx0⟩
      · exact .inr h) (fun h => absurd h hx0) hr
    unfold powValue at hv
    rw [if_neg hxc] at hv
    cases hv
    have hcast : (x : ℂ) ^ ((m : ℂ) / ((n : Int) : ℂ)) = cval r := by rw [hval]; push_cast; rfl
    rw [hcast]
    have hne : cval r ≠ 0 := by rw [hval, Complex.cpow_def_of_ne_zero hxc]; exact Complex.exp_ne_zero _
    rcases hsh with h | ⟨l, rfl, hl⟩
    · exact powAtom_val V h hne
    · have hc : cval (.expr (S "Times" :: l)) = cprod l := by simp [cval, S]
      rw [hc] at hne ⊢
      obtain ⟨h1, h2⟩ := cprod_val V hl hne
      have hS : S "Times" = .sym "System`Times" := rfl
      rw [hS, val_call V (fun a ha => (powAtom_frag hp (hl a ha)).2), h1, meaning_op_some, arith_times, h2]

theorem power_fn (hp : H "System`Power") (ht : H "System`Times") (hq : H "System`Rational") {order : List (Nat × Int) → List (Nat × Int)} (ho : ∀ l, (order l).Perm l)
    {args : List Ex} (ha : ∀ a ∈ args, FragFree H a) (hok : PowerOk (.expr (.sym "System`Power" :: args))) {f : Nat} {r : Ex} (hr : powerFn f order args = some r) :
    FragFree H r ∧ ∀ v, V.meaning.val (.expr (.sym "System`Power" :: args)) = some v → V.meaning.val r = some v := by
  have hself : ∀ args : List Ex, (∀ a ∈ args, FragFree H a) → FragFree H (.expr (S "Power" :: args)) ∧
      ∀ v, V.meaning.val (.expr (.sym "System`Power" :: args)) = some v → V.meaning.val (.expr (S "Power" :: args)) = some v :=
    fun args ha => ⟨⟨.app hp (fun a h => (ha a h).1), seqFree_app (by decide) (fun a h => (ha a h).2)⟩, fun v hv => hv⟩
  unfold powerFn at hr
  split at hr
  · cases hr; exact powerIntInt_related V hq
  · rename_i b p _
    cases hr
    split
    · rename_i h1
      subst h1
      refine ⟨ha b (by simp), fun v hv => ?_⟩
      rw [val_args2 V (ha b (by simp)).2.self rfl] at hv
      obtain ⟨l, h1, h2⟩ := meaning_op_def V hv
      rcases l with _ | ⟨x, _ | ⟨y, _ | ⟨z, l⟩⟩⟩
      · simp at h1
      · simp at h1
      · simp only [List.map_cons, List.map_nil, List.cons.injEq, and_true, val_int, Option.some.injEq] at h1
        rw [← h1.2, arith_pow] at h2
        have : (((1 : Int) : ℂ)) = 1 := by simp
        rw [this, powValue_one] at h2
        rw [h1.1, h2]
      · simp at h1
    · exact hself _ ha
  · rename_i b m d
    split at hr
    · exact powerIntRat_related V hp ht ho hok.1 hok.2 hr
    · cases hr; exact hself _ ha
  · cases hr; exact hself _ ha

end
end Expreduce
