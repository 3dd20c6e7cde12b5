import Verif.Proofs.ForLoop

/-! C120: `For` loops. -/

namespace Expreduce
open Ex
open AssignProg

section
variable {A : AlgParams} {strLen : Ex → Nat} {fmt : Rat → String}

/-- C120. `For[beg, test, incr, body]`: `beg` is evaluated once; then, as long as the test gives `True`, the body and after it the increment. The value is `Null`. -/
theorem C120_for_partial {st st1 st' : EState} (hA : 3 ≤ A.bound) (hL : LocalsOk A.locals) (h : Shell st) {beg test incr body v : Ex}
    (hb : Evals (ctx A strLen fmt) st beg st1 v) (hv : hasHead "System`Return" v = false) (h1 : Shell st1)
    (hrun : ForRuns (ctx A strLen fmt) test incr body st1 st') (hw : ∀ a ∈ [beg, test, incr, body], Whole a ∧ a ≠ .expr []) :
    Evals (ctx A strLen fmt) st (app "System`For" [beg, test, incr, body]) st' (S "Null") := by
  have w := fun a ha => (hw a ha).1
  have hq := evals_while (w test (by simp)) (w incr (by simp)) (w body (by simp)) h1 hrun
  refine evals_entry h h hA hL (f := "System`For") (d := { downvalues := [forRule], attrs := { holdAll := true, prot := true } }) (by simp [entries]) rfl rfl
    (by decide) rfl (evalSeq_allHeld rfl _ _) w rfl (by decide) (by simp) (fun a ha => (hw a ha).2) rfl ⟨_, rfl, by decide⟩ (by decide)
    (pass_compound h h1 hrun.shell hb hq (w beg (by simp)) ⟨rfl, rfl, rfl⟩ hv rfl) (final_null hrun.shell)

/-- `i = a` -/
def AssignProg.startAt (i : String) (a : Int) : Ex := app "System`Set" [.sym i, .int a]
/-- `i <= b` -/
def AssignProg.upTo (i : String) (b : Int) : Ex := app "System`LessEqual" [.sym i, .int b]
/-- `i < b` -/
def AssignProg.below (i : String) (b : Int) : Ex := app "System`Less" [.sym i, .int b]
/-- `i++` -/
def AssignProg.next (i : String) : Ex := app "System`Increment" [.sym i]

/-- The rounds of a loop whose counter is an integer. `go k` says whether the test is passed with the counter `k`; `m` is the first number from `a` on for which it is not. -/
theorem AssignProg.rounds (hA : 3 ≤ A.bound) (hL : LocalsOk A.locals) {i : String} {test body : Ex} (go : Int → Bool)
    (htest : ∀ st k, Shell st → HasValue st i (.int k) → Evals (ctx A strLen fmt) st test st (if go k then S "True" else S "False"))
    (P : Int → EState → Prop) {m : Int} (hm : go m = false) :
    ∀ (r : Nat) (a : Int), a + r = m → (∀ k, a ≤ k → k < m → go k = true) →
    (∀ k st, a ≤ k → k < m → P k st → Shell st → Variable st i → HasValue st i (.int k) → ∃ st' v, Evals (ctx A strLen fmt) st body st' v ∧
      hasHead "System`Return" v = false ∧ Shell st' ∧ Variable st' i ∧ HasValue st' i (.int k) ∧ ∀ st'', Becomes st' i (.int (k + 1)) st'' → P (k + 1) st'') →
    ∀ st, P a st → Shell st → Variable st i → HasValue st i (.int a) →
    ∃ st', ForRuns (ctx A strLen fmt) test (next i) body st st' ∧ P m st' ∧ Variable st' i ∧ HasValue st' i (.int m) := by
  intro r
  induction r with
  | zero =>
    intro a ham _ _ st hP hs hx hv
    obtain rfl : a = m := by omega
    have ht := htest st a hs hv
    rw [hm] at ht
    exact ⟨st, .stop ht (by decide +kernel) hs, hP, hx, hv⟩
  | succ r ih =>
    intro a ham hgo hbody st hP hs hx hv
    have ht := htest st a hs hv
    rw [hgo a (by omega) (by omega), if_pos rfl] at ht
    obtain ⟨st2, v, h1, h2, h3, h4, h5, h6⟩ := hbody a st (by omega) (by omega) hP hs hx hv
    obtain ⟨st3, e3, b3⟩ := C119_increment_partial (strLen := strLen) (fmt := fmt) hA hL h3 h4 h5
    obtain ⟨st', g1, g2, g3, g4⟩ := ih (a + 1) (by omega) (fun k h h' => hgo k (by omega) h') (fun k s h h' => hbody k s (by omega) h') st3 (h6 _ b3)
      (b3.shell h3 h4.user) (b3.variable h4) b3.value
    exact ⟨st', .round ht h1 e3 hs h3 (b3.shell h3 h4.user) h2 rfl rfl (done_int _) g1, g2, g3, g4⟩

theorem AssignProg.test_upTo {st : EState} (hs : Shell st) {i : String} {k b : Int} {t : Bool} (hv : HasValue st i (.int k))
    (ht : lessEqualEval numToN [.int k, .int b] = some t) : Evals (ctx A strLen fmt) st (upTo i b) st (if t then S "True" else S "False") :=
  evals_compare (f := "System`LessEqual") _ hs (.inr ⟨rfl, rfl⟩) (evals_num hs.notInterrupted hv rfl) (done_int b) (whole_int _) (whole_int _) ht

theorem AssignProg.test_below {st : EState} (hs : Shell st) {i : String} {k b : Int} {t : Bool} (hv : HasValue st i (.int k))
    (ht : lessEval numToN [.int k, .int b] = some t) : Evals (ctx A strLen fmt) st (below i b) st (if t then S "True" else S "False") :=
  evals_compare (f := "System`Less") _ hs (.inl ⟨rfl, rfl⟩) (evals_num hs.notInterrupted hv rfl) (done_int b) (whole_int _) (whole_int _) ht

theorem AssignProg.for_count (hA : 3 ≤ A.bound) (hL : LocalsOk A.locals) {i : String} {test body : Ex} (go : Int → Bool)
    (htest : ∀ st k, Shell st → HasValue st i (.int k) → Evals (ctx A strLen fmt) st test st (if go k then S "True" else S "False"))
    (P : Int → EState → Prop) {m a : Int} (hm : go m = false) (ham : a ≤ m) (hgo : ∀ k, a ≤ k → k < m → go k = true)
    {st : EState} (hs : Shell st) (hx : Variable st i) (wt : Whole test ∧ test ≠ .expr []) (wb : Whole body ∧ body ≠ .expr [])
    (h0 : ∀ st1, Becomes st i (.int a) st1 → P a st1)
    (hbody : ∀ k st, a ≤ k → k < m → P k st → Shell st → Variable st i → HasValue st i (.int k) → ∃ st' v, Evals (ctx A strLen fmt) st body st' v ∧
      hasHead "System`Return" v = false ∧ Shell st' ∧ Variable st' i ∧ HasValue st' i (.int k) ∧ ∀ st'', Becomes st' i (.int (k + 1)) st'' → P (k + 1) st'') :
    ∃ st', Evals (ctx A strLen fmt) st (app "System`For" [startAt i a, test, next i, body]) st' (S "Null") ∧
      P m st' ∧ Shell st' ∧ Variable st' i ∧ HasValue st' i (.int m) := by
  obtain ⟨st1, hb, he⟩ := evals_set_num (A := A) (strLen := strLen) (fmt := fmt) hs hx (r := .int a) rfl (done_int a)
  obtain ⟨st', h1, h2, h3, h4⟩ := rounds hA hL go htest P hm (m - a).toNat a (by omega) hgo hbody st1 (h0 _ hb) (hb.shell hs hx.user) (hb.variable hx) hb.value
  refine ⟨st', C120_for_partial hA hL hs he rfl (hb.shell hs hx.user) h1 ?_, h2, h1.shell, h3, h4⟩
  intro e he'
  simp only [List.mem_cons, List.not_mem_nil, or_false] at he'
  rcases he' with rfl | rfl | rfl | rfl
  · exact ⟨⟨rfl, rfl, rfl⟩, by simp [startAt, app]⟩
  · exact wt
  · exact ⟨⟨rfl, rfl, rfl⟩, by simp [next, app]⟩
  · exact wb

/-- C120. A counting loop `For[i = a, i <= b, i++, body]` with bounds of at most 2^53: the body is evaluated for `i = a, a + 1, ..., b`, in this order, and the counter is left at `b + 1`
(at `a` if there is no round). `P k` is any property of the session that holds before the round with the counter `k`. -/
theorem C120_counting_partial (hA : 3 ≤ A.bound) (hL : LocalsOk A.locals) {i : String} {body : Ex} {a b : Int} (ha : |a| ≤ 2 ^ 53) (hb : |b| < 2 ^ 53)
    (P : Int → EState → Prop) {st : EState} (hs : Shell st) (hx : Variable st i) (wb : Whole body ∧ body ≠ .expr [])
    (h0 : ∀ st1, Becomes st i (.int a) st1 → P a st1)
    (hbody : ∀ k st, a ≤ k → k ≤ b → P k st → Shell st → Variable st i → HasValue st i (.int k) → ∃ st' v, Evals (ctx A strLen fmt) st body st' v ∧
      hasHead "System`Return" v = false ∧ Shell st' ∧ Variable st' i ∧ HasValue st' i (.int k) ∧ ∀ st'', Becomes st' i (.int (k + 1)) st'' → P (k + 1) st'') :
    ∃ st', Evals (ctx A strLen fmt) st (app "System`For" [startAt i a, upTo i b, next i, body]) st' (S "Null") ∧
      P (max a (b + 1)) st' ∧ Shell st' ∧ Variable st' i ∧ HasValue st' i (.int (max a (b + 1))) := by
  have key : ∀ k : Int, lessEqualEval numToN [.int k, .int b] = some (decide (rnd53 (k : Rat) ≤ rnd53 (b : Rat))) := by
    intro k
    rw [(C12_reals [.int k, .int b] (by simp [realNum])).2.1]
    simp [rounded]
  rw [abs_le] at ha; rw [abs_lt] at hb
  have hok : ∀ k : Int, a ≤ k → k ≤ max a (b + 1) → (rnd53 (k : Rat) ≤ rnd53 (b : Rat) ↔ k ≤ b) := by
    intro k h1 h2
    have hk : |k| ≤ 2 ^ 53 := by
      rw [abs_le]
      rcases max_choice a (b + 1) with h | h <;> rw [h] at h2 <;> constructor <;> omega
    rw [rnd53_int_exact k hk, rnd53_int_exact b (by rw [abs_le]; omega)]
    exact Int.cast_le
  refine for_count hA hL (fun k => decide (rnd53 (k : Rat) ≤ rnd53 (b : Rat))) (fun st k h1 h2 => test_upTo h1 h2 (key k)) P ?_ (le_max_left _ _) ?_ hs hx
    ⟨⟨rfl, rfl, rfl⟩, by simp [upTo, app]⟩ wb h0 (fun k st h1 h2 => hbody k st h1 ?_)
  · rw [decide_eq_false_iff_not, hok _ (le_max_left _ _) (le_refl _)]
    omega
  · intro k h1 h2
    rw [decide_eq_true_iff, hok k h1 h2.le]
    rcases max_choice a (b + 1) with h | h <;> rw [h] at h2 <;> omega
  · rcases max_choice a (b + 1) with h | h <;> rw [h] at h2 <;> omega

theorem AssignProg.evals_two {f : String} (F : List Ex → Ex) {st : EState} (h : Shell st)
    (hf : f = "System`Plus" ∧ F = plusEval A.toN ∨ f = "System`Times" ∧ F = timesEval A.toN) {x y : String} {m n r : Int} (hx : HasValue st x (.int m))
    (hy : HasValue st y (.int n)) (h1 : F [.int m, .int n] = .int r) (h2 : F [.int n, .int m] = .int r) :
    Evals (ctx A strLen fmt) st (.expr [.sym f, .sym x, .sym y]) st (.int r) :=
  evals_arith F h hf rfl (evals_num h.notInterrupted hx rfl) (evals_num h.notInterrupted hy rfl) rfl rfl rfl h1 h2

/-- A loop that combines the counter into a second variable: `For[i = 1, i <= n, i++, s = f[s, i]]`. -/
theorem AssignProg.accumulate (hA : 3 ≤ A.bound) (hL : LocalsOk A.locals) {i s : String} (his : i ≠ s) {n : Int} (hn : 0 ≤ n) (hn' : n < 2 ^ 53)
    {f : String} (F : List Ex → Ex) (hf : f = "System`Plus" ∧ F = plusEval A.toN ∨ f = "System`Times" ∧ F = timesEval A.toN) (acc : Int → Int)
    (hacc : ∀ k, 1 ≤ k → k ≤ n → F [.int (acc (k - 1)), .int k] = .int (acc k) ∧ F [.int k, .int (acc (k - 1))] = .int (acc k))
    {st : EState} (hs : Shell st) (hi : Variable st i) (hsv : Variable st s) (h0 : HasValue st s (.int (acc 0))) :
    ∃ st', Evals (ctx A strLen fmt) st
        (app "System`For" [startAt i 1, upTo i n, next i, app "System`Set" [.sym s, .expr [.sym f, .sym s, .sym i]]]) st' (S "Null") ∧
      HasValue st' s (.int (acc n)) ∧ HasValue st' i (.int (n + 1)) := by
  obtain ⟨st', h1, h2, _, _, h5⟩ := C120_counting_partial (strLen := strLen) (fmt := fmt) hA hL (i := i) (a := 1) (b := n)
    (body := app "System`Set" [.sym s, .expr [.sym f, .sym s, .sym i]]) (by norm_num) (by rw [abs_lt]; omega)
    (fun k st => Variable st s ∧ HasValue st s (.int (acc (k - 1)))) hs hi ⟨⟨rfl, rfl, rfl⟩, by simp [app]⟩
    (fun st1 hb => ⟨⟨hsv.named, hsv.user, by have := hsv.rules; simp only [rulesFor] at this ⊢; rwa [hb.others s (Ne.symm his)]⟩, hb.keeps (Ne.symm his) (by simpa using h0)⟩) (by
      intro k st hk1 hk2 ⟨hv1, hv2⟩ hsh hiv hik
      have hk := hacc k hk1 hk2
      obtain ⟨st', hb, he⟩ := evals_set_num (A := A) (strLen := strLen) (fmt := fmt) hsh hv1 (r := .int (acc k)) rfl
        (evals_two F hsh hf hv2 hik hk.1 hk.2)
      refine ⟨st', _, he, rfl, hb.shell hsh hv1.user, ⟨hiv.named, hiv.user, ?_⟩, hb.keeps his hik, fun st'' hb' => ?_⟩
      · have := hiv.rules; simp only [rulesFor] at this ⊢; rwa [hb.others i his]
      · have h1 := hb.variable hv1
        refine ⟨⟨h1.named, h1.user, by have := h1.rules; simp only [rulesFor] at this ⊢; rwa [hb'.others s (Ne.symm his)]⟩, ?_⟩
        have := hb'.keeps (Ne.symm his) hb.value
        rwa [show k + 1 - 1 = k by omega])
  have : max 1 (n + 1) = n + 1 := by omega
  rw [this] at h2 h5
  refine ⟨st', h1, ?_, h5⟩
  have := h2.2
  rwa [show n + 1 - 1 = n by omega] at this

/-- C120. `For[i = 1, i <= n, i++, s = s + i]` with `s = 0` before leaves `s = 1 + 2 + ... + n = n (n + 1) / 2`. -/
theorem C120_sum_partial (hA : 3 ≤ A.bound) (hL : LocalsOk A.locals) {i s : String} (his : i ≠ s) {n : Int} (hn : 0 ≤ n) (hn' : n < 2 ^ 53)
    {st : EState} (hs : Shell st) (hi : Variable st i) (hsv : Variable st s) (h0 : HasValue st s (.int 0)) :
    ∃ st', Evals (ctx A strLen fmt) st
        (app "System`For" [startAt i 1, upTo i n, next i, app "System`Set" [.sym s, .expr [S "Plus", .sym s, .sym i]]]) st' (S "Null") ∧
      HasValue st' s (.int (n * (n + 1) / 2)) ∧ HasValue st' i (.int (n + 1)) := by
  refine accumulate hA hL his hn hn' (f := "System`Plus") (plusEval A.toN) (.inl ⟨rfl, rfl⟩) (fun k => k * (k + 1) / 2) (fun k _ _ => ?_) hs hi hsv h0
  have e : (k - 1) * (k - 1 + 1) / 2 + k = k * (k + 1) / 2 := by
    have : k * (k + 1) = (k - 1) * (k - 1 + 1) + k * 2 := by ring
    rw [this, Int.add_mul_ediv_right _ _ (by norm_num)]
  exact int_add _ _ _ e

/-- C120. `For[i = 1, i <= n, i++, s = s * i]` with `s = 1` before leaves `s = n!`. -/
theorem C120_factorial_partial (hA : 3 ≤ A.bound) (hL : LocalsOk A.locals) {i s : String} (his : i ≠ s) {n : Nat} (hn' : n < 2 ^ 53)
    {st : EState} (hs : Shell st) (hi : Variable st i) (hsv : Variable st s) (h0 : HasValue st s (.int 1)) :
    ∃ st', Evals (ctx A strLen fmt) st
        (app "System`For" [startAt i 1, upTo i n, next i, app "System`Set" [.sym s, .expr [S "Times", .sym s, .sym i]]]) st' (S "Null") ∧
      HasValue st' s (.int (n.factorial : Int)) ∧ HasValue st' i (.int (n + 1)) := by
  have := accumulate (A := A) (strLen := strLen) (fmt := fmt) hA hL his (n := n) (by omega) (by omega) (f := "System`Times") (timesEval A.toN) (.inr ⟨rfl, rfl⟩)
    (fun k => (k.toNat.factorial : Int)) (fun k h1 h2 => ?_) hs hi hsv h0
  · simpa [S] using this
  · have e : (((k - 1).toNat.factorial : Nat) : Int) * k = (k.toNat.factorial : Int) := by
      obtain ⟨j, rfl⟩ : ∃ j : Nat, k = j + 1 := ⟨(k - 1).toNat, by omega⟩
      have h1 : ((j : Int) + 1 - 1).toNat = j := by omega
      have h2 : ((j : Int) + 1).toNat = j + 1 := by omega
      rw [h1, h2, Nat.factorial_succ]; push_cast; ring
    exact ⟨by rw [timesEval_ints, e], by rw [timesEval_ints, Int.mul_comm, e]⟩

end
end Expreduce

namespace Expreduce
open Ex
open AssignProg

section
variable {A : AlgParams} {strLen : Ex → Nat} {fmt : Rat → String}

theorem AssignProg.evals_null {st : EState} (h : Shell st) : Evals (ctx A strLen fmt) st (S "Null") st (S "Null") := done_sym (h.noValue _ (by simp))

theorem AssignProg.rnd53_2_53_2 : rnd53 ((2 ^ 53 + 2 : Int) : Rat) = (2 ^ 53 + 2 : Int) := by
  have hl : Int.log 2 |((2 ^ 53 + 2 : Int) : Rat)| = 53 := by
    rw [abs_of_pos (by norm_num)]
    have := (Int.log_natCast (R := Rat) 2 (2 ^ 53 + 2))
    have h2 : Nat.log 2 (2 ^ 53 + 2) = 53 := by
      rw [Nat.log_eq_iff (by norm_num)]; norm_num
    rw [h2] at this
    push_cast at this ⊢
    exact this
  unfold rnd53 ulp53
  rw [hl, if_neg (by norm_num)]
  have : ((2 ^ 53 + 2 : Int) : Rat) / (2 : Rat) ^ ((53 : Int) - 52) = ((2 ^ 52 + 1 : Int) : Rat) := by norm_num
  rw [this, rne_int]
  norm_num

/-- C120. The bound 2^53 is not respected: `For[i = 2^53, i <= 2^53, i++, Null]` does a round with `i = 2^53 + 1` too and leaves `i = 2^53 + 2`. -/
theorem C120_bound_passed {st : EState} (hA : 3 ≤ A.bound) (hL : LocalsOk A.locals) (hs : Shell st) {i : String} (hi : Variable st i) :
    ∃ st', Evals (ctx A strLen fmt) st (app "System`For" [startAt i (2 ^ 53), upTo i (2 ^ 53), next i, S "Null"]) st' (S "Null") ∧
      HasValue st' i (.int (2 ^ 53 + 2)) := by
  have key : ∀ k : Int, lessEqualEval numToN [.int k, .int (2 ^ 53)] = some (decide (rnd53 (k : Rat) ≤ rnd53 ((2 ^ 53 : Int) : Rat))) := by
    intro k
    rw [(C12_reals [.int k, .int (2 ^ 53)] (by simp [realNum])).2.1]
    simp [rounded]
  have e0 : rnd53 ((2 ^ 53 : Int) : Rat) = (2 ^ 53 : Int) := rnd53_int_exact _ (by norm_num)
  obtain ⟨st', h1, _, _, _, h5⟩ := for_count (A := A) (strLen := strLen) (fmt := fmt) hA hL (i := i)
    (fun k => decide (rnd53 (k : Rat) ≤ rnd53 ((2 ^ 53 : Int) : Rat))) (fun st k h1 h2 => test_upTo h1 h2 (key k)) (fun _ _ => True)
    (m := 2 ^ 53 + 2) (a := 2 ^ 53) (by rw [rnd53_2_53_2, e0]; norm_num) (by norm_num) (by
      intro k h1 h2
      have : k = 2 ^ 53 ∨ k = 2 ^ 53 + 1 := by omega
      rcases this with rfl | rfl
      · simp
      · rw [rnd53_2_53_1, e0]; simp) hs hi ⟨⟨rfl, rfl, rfl⟩, by simp [upTo, app]⟩ ⟨⟨rfl, rfl, rfl⟩, by simp [S]⟩ (fun _ _ => trivial)
    (fun k st _ _ _ h1 h2 h3 => ⟨st, _, evals_null h1, rfl, h1, h2, h3, fun _ _ => trivial⟩)
  exact ⟨st', h1, h5⟩

/-- C120. `Break[]` does not leave a `For` loop: `For[i = a, i <= b, i++, Break[]]` counts up to the end. (`System`Break` is a symbol without definition.) -/
theorem C120_break_ignored {st : EState} (hA : 3 ≤ A.bound) (hL : LocalsOk A.locals) (hs : Shell st) {i : String} (hi : Variable st i) {a b : Int}
    (ha : |a| ≤ 2 ^ 53) (hb : |b| < 2 ^ 53) (hbr : st.defs "System`Break" = some {}) (hib : i ≠ "System`Break") :
    ∃ st', Evals (ctx A strLen fmt) st (app "System`For" [startAt i a, upTo i b, next i, app "System`Break" []]) st' (S "Null") ∧
      HasValue st' i (.int (max a (b + 1))) := by
  obtain ⟨st', h1, _, _, _, h5⟩ := C120_counting_partial (A := A) (strLen := strLen) (fmt := fmt) hA hL (i := i) (body := app "System`Break" []) ha hb
    (fun _ st => st.defs "System`Break" = some {}) hs hi ⟨⟨rfl, rfl, rfl⟩, by simp [app]⟩ (fun st1 hb => by rw [hb.others _ (Ne.symm hib)]; exact hbr) (by
      intro k st _ _ hP h1 h2 h3
      refine ⟨st, app "System`Break" [], ?_, rfl, h1, h2, h3, fun st'' hb => by rw [hb.others _ (Ne.symm hib)]; exact hP⟩
      have hnv : getSymDef st.toDState "System`Break" = none := by simp [getSymDef, hP]
      have hat : attrsOf st "System`Break" = {} := by simp [attrsOf, hP]
      refine evals_inert mono same_refl' rfl hnv h1.notThrown h1.notThrown ⟨hnv, by simp [hasBuiltin, hP], fun ev e => by simp [ctx, algFind, getDef, hP, rulesReplace]⟩
        rfl (by rw [hat]; rfl) .nil (ws := []) ⟨0, fun n _ => spliceParts_plain _ _ _ _ ?_⟩ (by simp) (by simp)
      intro p hp
      simp only [List.mem_cons, List.not_mem_nil, or_false] at hp
      subst hp; exact plain_sym _ _)
  exact ⟨st', h1, h5⟩

end
end Expreduce

namespace Expreduce
open Ex
open AssignProg

/-- C120, concrete: after `s = 0`, `For[i = 1, i <= 100, i++, s = s + i]` leaves `s = 5050`. -/
example (strLen : Ex → Nat) (fmt : Rat → String) : ∃ st', Evals (ctx {} strLen fmt)
      (session [] [valueRule "Global`i" (.int 7)] [valueRule "Global`s" (.int 0)] [])
      (app "System`For" [startAt "Global`i" 1, upTo "Global`i" 100, next "Global`i",
        app "System`Set" [.sym "Global`s", .expr [S "Plus", .sym "Global`s", .sym "Global`i"]]]) st' (S "Null") ∧
    HasValue st' "Global`s" (.int 5050) ∧ HasValue st' "Global`i" (.int 101) :=
  C120_sum_partial (A := {}) (by decide) locals_std (n := 100) (by decide) (by norm_num) (by norm_num) (session_shell _ _ _ _)
    ⟨by decide, by decide, plain_value (by simp)⟩ ⟨by decide, by decide, plain_value (by simp)⟩ rfl

/-- C120, concrete: the hypotheses of `C120_break_ignored` and `C120_bound_passed` hold in a session. -/
example (strLen : Ex → Nat) (fmt : Rat → String) : ∃ st', Evals (ctx {} strLen fmt) (session [] [valueRule "Global`i" (.int 7)] [] [])
      (app "System`For" [startAt "Global`i" 1, upTo "Global`i" 10, next "Global`i", app "System`Break" []]) st' (S "Null") ∧
    HasValue st' "Global`i" (.int 11) :=
  C120_break_ignored (A := {}) (by decide) locals_std (session_shell _ _ _ _) ⟨by decide, by decide, plain_value (by simp)⟩ (by norm_num) (by norm_num) rfl (by decide)

end Expreduce
