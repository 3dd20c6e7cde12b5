import Verif.Props.Functional2

/-! Property C77 (NestWhileList). -/

namespace Expreduce
open Ex

/-! ### C77: NestWhileList -/

/-- Whether round `j` (the value number `j` has just been computed) goes on, for a test on the last `m` values. -/
def goesOn (g : Ex → Ex) (f x test : Ex) (m : Nat) (j : Nat) : Prop :=
  j + 1 < m ∨ g (.expr (test :: (List.range' (j + 1 - m) m).map (fun i => g (nest f x i)))) = S "True"

theorem range_drop {g : Nat → Ex} {k m : Nat} (h : m ≤ k) : ((List.range k).map g).drop (k - m) = (List.range' (k - m) m).map g := by
  rw [← List.map_drop, List.range_eq_range', List.drop_range', show k - (k - m) = m by omega]
  simp

theorem res_ok_bind {α β : Type} (a : α) (f : α → Res β) : (Res.ok a).bind f = f a := rfl

theorem nestWhileLoop_eq {g : Ex → Ex} {ev : Evaluator} (hev : ∀ st e, ev st e = .ok (st, g e)) {f x test : Ex} {m : Nat} {max : Int} {st : EState} {n : Nat}
    (hstop : ¬ goesOn g f x test m n ∨ (max ≠ -1 ∧ max ≤ n)) (h1 : 1 ≤ n)
    (hgo : ∀ j, 1 ≤ j → j < n → goesOn g f x test m j ∧ (max = -1 ∨ (j : Int) < max)) :
    ∀ (k j : Nat), j + 1 + k = n →
      nestWhileLoop f test ev m max (k + 1) st (j + 2) (nest f x j) ((List.range (j + 1)).map (fun i => g (nest f x i)))
        (((List.range (j + 1)).map (nest f x)).reverse) = .ok (st, ((List.range (n + 1)).map (nest f x)).reverse) := by
  intro k
  induction k with
  | zero =>
    intro j hj
    obtain rfl : n = j + 1 := by omega
    have hvs : (List.range (j + 1)).map (fun i => g (nest f x i)) ++ [g (.expr [f, nest f x j])] = (List.range (j + 2)).map (fun i => g (nest f x i)) := by
      rw [List.range_succ (n := j + 1), List.map_append]; rfl
    have hacc : (.expr [f, nest f x j] : Ex) :: ((List.range (j + 1)).map (nest f x)).reverse = ((List.range (j + 2)).map (nest f x)).reverse := by
      rw [List.range_succ (n := j + 1), List.map_append, List.reverse_append]; rfl
    rw [nestWhileLoop, hev, Res.bind, hvs, hacc]
    by_cases hm : ((j : Int) + 2) ≥ m
    · rw [if_pos hm, hev]
      have ht : testArgs m ((List.range (j + 2)).map (fun i => g (nest f x i))) = (List.range' (j + 1 + 1 - m) m).map (fun i => g (nest f x i)) := by
        rw [testArgs, if_pos (by omega), List.length_map, List.length_range]
        rw [show (((j + 2 : Nat) : Int) - (m : Int)).toNat = j + 2 - m by omega, range_drop (by omega)]
      simp only [Res.bind, ht]
      rw [if_neg]
      simp only [Bool.and_eq_true, decide_eq_true_eq, Bool.not_eq_true', Bool.and_eq_false_imp, decide_eq_false_iff_not, not_and]
      rcases hstop with hs | ⟨hs1, hs2⟩
      · intro h
        exact absurd (.inr h) hs
      · intro _ h
        exact h (by omega) hs1
    · rw [if_neg hm]
      simp only [Res.bind]
      rw [if_neg]
      simp only [Bool.and_eq_true, decide_eq_true_eq, Bool.not_eq_true', Bool.and_eq_false_imp, decide_eq_false_iff_not, not_and]
      rcases hstop with hs | ⟨hs1, hs2⟩
      · exact absurd (.inl (by omega)) hs
      · intro _ h
        exact h (by omega) hs1
  | succ k ih =>
    intro j hj
    have hvs : (List.range (j + 1)).map (fun i => g (nest f x i)) ++ [g (.expr [f, nest f x j])] = (List.range (j + 2)).map (fun i => g (nest f x i)) := by
      rw [List.range_succ (n := j + 1), List.map_append]; rfl
    have hacc : (.expr [f, nest f x j] : Ex) :: ((List.range (j + 1)).map (nest f x)).reverse = ((List.range (j + 2)).map (nest f x)).reverse := by
      rw [List.range_succ (n := j + 1), List.map_append, List.reverse_append]; rfl
    obtain ⟨hg1, hg2⟩ := hgo (j + 1) (by omega) (by omega)
    have ihj := ih (j + 1) (by omega)
    rw [nestWhileLoop, hev, res_ok_bind]
    simp only [hvs, hacc]
    have hmax : (!(decide (((j : Int) + 2) > max) && decide (max ≠ -1))) = true := by
      rcases hg2 with h | h
      · simp [h]
      · have : ¬ ((j : Int) + 2 > max) := by push_cast at h; omega
        simp [this]
    have hcont : (if ((j : Int) + 2) ≥ m then (ev st (.expr (test :: testArgs m ((List.range (j + 2)).map (fun i => g (nest f x i)))))).bind
        (fun q => Res.ok (q.1, decide (q.2 = S "True"))) else Res.ok (st, true)) = .ok (st, true) := by
      by_cases hm : ((j : Int) + 2) ≥ m
      · rw [if_pos hm, hev]
        have ht : testArgs m ((List.range (j + 2)).map (fun i => g (nest f x i))) = (List.range' (j + 1 + 1 - m) m).map (fun i => g (nest f x i)) := by
          rw [testArgs, if_pos (by omega), List.length_map, List.length_range]
          rw [show (((j + 2 : Nat) : Int) - (m : Int)).toNat = j + 2 - m by omega, range_drop (by omega)]
        rw [ht]
        rcases hg1 with h | h
        · omega
        · simp [Res.bind, h]
      · rw [if_neg hm]
    rw [hcont, res_ok_bind]
    simp only [hmax, Bool.true_and, if_true]
    rw [show ((j : Int) + 2 + 1) = (((j + 1 : Nat) : Int) + 2) by push_cast; omega]
    exact ihj

theorem nestWhileListFn_eq {k : Nat} {ev : Evaluator} {st : EState} {P f x test : Ex} {r : List Ex} {m max : Int} (hr : r.length ≤ 3)
    (hM : nestWhileM (P :: f :: x :: test :: r) = some m) (hX : nestWhileMax (P :: f :: x :: test :: r) = some max) :
    nestWhileListFn k ev st (P :: f :: x :: test :: r) = (ev st x).bind (fun q =>
      (nestWhileLoop f test ev m max k q.1 2 x [q.2] [x]).bind (fun q =>
        .ok (q.1, .expr (S "List" :: (q.2.reverse ++ nestListLoop f (q.2.headD x) (nestWhileMore (P :: f :: x :: test :: r))))))) := by
  rw [nestWhileListFn, if_neg (by simp only [List.length_cons]; omega)]
  · exact hM
  · exact hX

theorem nestWhileLoop_start {g : Ex → Ex} {ev : Evaluator} (hev : ∀ st e, ev st e = .ok (st, g e)) {f x test : Ex} {m : Nat} {max : Int} {st : EState} {n : Nat}
    (hstop : ¬ goesOn g f x test m n ∨ (max ≠ -1 ∧ max ≤ n)) (h1 : 1 ≤ n)
    (hgo : ∀ j, 1 ≤ j → j < n → goesOn g f x test m j ∧ (max = -1 ∨ (j : Int) < max)) :
    nestWhileLoop f test ev m max (n - 1 + 1) st 2 x [g x] [x] = .ok (st, ((List.range (n + 1)).map (nest f x)).reverse) :=
  nestWhileLoop_eq hev hstop h1 hgo (n - 1) 0 (by omega)

theorem nestWhileM_int (P f x test : Ex) (m : Nat) (r : List Ex) (hm : (m : Int) < 2 ^ 63) : nestWhileM (P :: f :: x :: test :: .int m :: r) = some (m : Int) := by
  rw [nestWhileM, wrap64_of_fits (n := (m : Int)) (by omega) hm, if_neg (by omega)]

theorem nestWhileMax_int (P f x test : Ex) (a : Ex) (m : Nat) (r : List Ex) (hm : (m : Int) < 2 ^ 63) :
    nestWhileMax (P :: f :: x :: test :: a :: .int m :: r) = some (m : Int) := by
  rw [nestWhileMax, wrap64_of_fits (n := (m : Int)) (by omega) hm, if_neg (by omega)]

/-- C77. `NestWhileList[f, x, test, m]` with an evaluator without effects lists `x, f[x], ..., fⁿ[x]`, where `n ≥ 1` is the first number for which there
are `m` values and the test of the last `m` of them is not `True`. -/
theorem C77_nestWhile_partial (P f x test : Ex) (m n : Nat) (hm : (m : Int) < 2 ^ 63) (g : Ex → Ex) (ev : Evaluator) (hev : ∀ st e, ev st e = .ok (st, g e)) (st : EState)
    (h1 : 1 ≤ n) (hstop : ¬ goesOn g f x test m n) (hgo : ∀ j, 1 ≤ j → j < n → goesOn g f x test m j) :
    ∃ k, nestWhileListFn k ev st [P, f, x, test, .int m] = .ok (st, .expr (S "List" :: (List.range (n + 1)).map (nest f x))) := by
  refine ⟨n - 1 + 1, ?_⟩
  rw [nestWhileListFn_eq (by simp) (nestWhileM_int P f x test m [] hm) (max := -1) rfl, hev, res_ok_bind,
    nestWhileLoop_start hev (.inl hstop) h1 (fun j hj hjn => ⟨hgo j hj hjn, .inl rfl⟩), res_ok_bind, List.reverse_reverse]
  show Res.ok (st, _) = _
  rw [nestWhileMore, nestListLoop, List.append_nil]
  all_goals simp

/-- C77. Without a count the test sees one value, but the starting value is never tested: if the test fails on every value, the result is `{x, f[x]}`
instead of `{x}`. -/
theorem C77_start_untested (P f x test : Ex) (g : Ex → Ex) (ev : Evaluator) (hev : ∀ st e, ev st e = .ok (st, g e)) (st : EState)
    (hfalse : ∀ v, g (.expr [test, v]) ≠ S "True") :
    ∃ k, nestWhileListFn k ev st [P, f, x, test] = .ok (st, .expr [S "List", x, .expr [f, x]]) := by
  refine ⟨1, ?_⟩
  have hstop : ¬ goesOn g f x test 1 1 := by
    rintro (h | h)
    · omega
    · exact hfalse _ h
  rw [nestWhileListFn_eq (by decide) (m := ((1 : Nat) : Int)) rfl (max := -1) rfl, hev, res_ok_bind,
    nestWhileLoop_start (n := 1) hev (.inl hstop) le_rfl (fun j hj hjn => by omega), res_ok_bind, List.reverse_reverse]
  rfl

/-- C77. A limit `max ≥ 1` on the number of applications is kept; the limit 0 is not: `f` is applied once. -/
theorem C77_limit (P f x test : Ex) (max : Nat) (hmax : (max : Int) < 2 ^ 63) (g : Ex → Ex) (ev : Evaluator) (hev : ∀ st e, ev st e = .ok (st, g e))
    (st : EState) (htrue : ∀ v, g (.expr [test, v]) = S "True") :
    ∃ k, nestWhileListFn k ev st [P, f, x, test, .int 1, .int max] =
      .ok (st, .expr (S "List" :: (List.range ((if max = 0 then 1 else max) + 1)).map (nest f x))) := by
  refine ⟨(if max = 0 then 1 else max) - 1 + 1, ?_⟩
  generalize hn : (if max = 0 then 1 else max) = n
  have hn1 : 1 ≤ n := by split at hn <;> omega
  change nestWhileListFn (n - 1 + 1) ev st [P, f, x, test, .int ((1 : Nat) : Int), .int max] = _
  rw [nestWhileListFn_eq (by simp) (nestWhileM_int P f x test 1 _ (by decide +kernel)) (nestWhileMax_int P f x test _ max [] hmax), hev, res_ok_bind,
    nestWhileLoop_start hev (.inr ⟨by omega, by split at hn <;> omega⟩) hn1
      (fun j hj hjn => ⟨.inr (by simpa using htrue _), .inr (by split at hn <;> omega)⟩), res_ok_bind, List.reverse_reverse]
  show Res.ok (st, _) = _
  rw [nestWhileMore, nestListLoop, List.append_nil]
  all_goals simp

/-- The hypotheses are met: an evaluator for which every test fails. -/
example : ∃ (g : Ex → Ex) (ev : Evaluator), (∀ st e, ev st e = .ok (st, g e)) ∧ (∀ test v, g (.expr [test, v]) ≠ S "True") ∧
    ¬ goesOn g (.sym "f") (.int 1) (.sym "t") 2 1 :=
  ⟨id, fun st e => .ok (st, e), fun _ _ => rfl, fun _ _ => by simp [S], by simp [goesOn, S]⟩

end Expreduce
