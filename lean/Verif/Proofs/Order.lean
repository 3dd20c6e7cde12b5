import Verif.Model.Order
import Verif.Proofs.Round
import Mathlib.Tactic.SplitIfs

/-! Helper lemmas about the canonical order. -/

namespace Expreduce

/-! ### Termination and the fixed-point equation -/

theorem lexLoop_mono {c c' : Ex → Ex → Option Int} (h : ∀ a b r, c a b = some r → c' a b = some r)
    (as bs : List Ex) (r : Int) : lexLoop c as bs = some r → lexLoop c' as bs = some r := by
  induction as generalizing bs with
  | nil => cases bs <;> simp [lexLoop]
  | cons a as ih =>
    cases bs with
    | nil => simp [lexLoop]
    | cons b bs =>
      simp only [lexLoop]
      cases hc : c a b with
      | none => simp
      | some o => rw [h _ _ _ hc]; simp only; split <;> [exact id; exact ih bs]

theorem backLoop_mono {c c' : Ex → Ex → Option Int} (h : ∀ a b r, c a b = some r → c' a b = some r)
    (as bs : List Ex) (r : Int) : backLoop c as bs = some r → backLoop c' as bs = some r := by
  induction as generalizing bs with
  | nil => cases bs <;> simp [backLoop]
  | cons a as ih =>
    cases bs with
    | nil => simp [backLoop]
    | cons b bs =>
      simp only [backLoop]
      split
      · exact ih bs
      · cases hc : c a b with
        | none => simp
        | some o => rw [h _ _ _ hc]; simp only; split <;> [exact id; exact ih bs]

theorem numLoop_mono {c c' : Ex → Ex → Option Int} (h : ∀ a b r, c a b = some r → c' a b = some r)
    (as bs : List Ex) (r : Int) : numLoop c as bs = some r → numLoop c' as bs = some r := by
  induction as generalizing bs with
  | nil => cases bs <;> simp [numLoop]
  | cons a as ih =>
    cases bs with
    | nil => simp [numLoop]
    | cons b bs =>
      simp only [numLoop]
      split
      · cases hc : c a b with
        | none => simp
        | some o => rw [h _ _ _ hc]; simp only; split <;> [exact id; exact ih bs]
      · exact ih bs

theorem cmpPlain_mono {c c' : Ex → Ex → Option Int} (h : ∀ a b r, c a b = some r → c' a b = some r)
    (as bs : List Ex) (r : Int) : cmpPlain c as bs = some r → cmpPlain c' as bs = some r := by
  unfold cmpPlain
  split <;> [exact id; split <;> [exact id; exact lexLoop_mono h as bs r]]

theorem cmpTimes_mono {c c' : Ex → Ex → Option Int} (h : ∀ a b r, c a b = some r → c' a b = some r)
    (as bs : List Ex) (r : Int) : cmpTimes c as bs = some r → cmpTimes c' as bs = some r := by
  unfold cmpTimes
  cases hb : backLoop c as.reverse bs.reverse with
  | none => simp
  | some o =>
    rw [backLoop_mono h _ _ _ hb]
    simp only
    split
    · exact id
    · cases hn : numLoop c as bs with
      | none => simp
      | some o => rw [numLoop_mono h _ _ _ hn]; exact id

theorem exOrderStep_mono {c c' : Ex → Ex → Option Int}
    (h : ∀ a b r, c a b = some r → c' a b = some r) (a b : Ex) (r : Int) :
    exOrderStep c a b = some r → exOrderStep c' a b = some r := by
  unfold exOrderStep
  split
  · exact id
  · split
    · exact id
    · split <;> try exact id
      · simp only
        split_ifs <;> first
          | exact h _ _ _
          | exact cmpTimes_mono h _ _ _
          | exact cmpPlain_mono h _ _ _
      · split_ifs <;> first | exact h _ _ _ | exact id
      · split_ifs <;> first | exact h _ _ _ | exact id

theorem exOrderF_succ {n : Nat} {a b : Ex} {r : Int} (h : exOrderF n a b = some r) :
    exOrderF (n + 1) a b = some r := by
  induction n generalizing a b r with
  | zero => simp [exOrderF] at h
  | succ n ih => exact exOrderStep_mono (fun a b r => ih) a b r h

theorem exOrderF_mono {n m : Nat} (hnm : n ≤ m) {a b : Ex} {r : Int} (h : exOrderF n a b = some r) :
    exOrderF m a b = some r := by
  induction hnm with
  | refl => exact h
  | step _ ih => exact exOrderF_succ ih

theorem lexLoop_total {c : Ex → Ex → Option Int} {as bs : List Ex}
    (h : ∀ a ∈ as, ∀ b ∈ bs, (c a b).isSome) : (lexLoop c as bs).isSome := by
  induction as generalizing bs with
  | nil => simp [lexLoop]
  | cons a as ih =>
    cases bs with
    | nil => simp [lexLoop]
    | cons b bs =>
      have h1 := h a (by simp) b (by simp)
      obtain ⟨o, ho⟩ := Option.isSome_iff_exists.1 h1
      simp only [lexLoop, ho]
      split
      · rfl
      · exact ih (fun a ha b hb => h a (by simp [ha]) b (by simp [hb]))

theorem backLoop_total {c : Ex → Ex → Option Int} {as bs : List Ex}
    (h : ∀ a ∈ as, ∀ b ∈ bs, (c a b).isSome) : (backLoop c as bs).isSome := by
  induction as generalizing bs with
  | nil => simp [backLoop]
  | cons a as ih =>
    cases bs with
    | nil => simp [backLoop]
    | cons b bs =>
      have h1 := h a (by simp) b (by simp)
      obtain ⟨o, ho⟩ := Option.isSome_iff_exists.1 h1
      have ih' := ih (bs := bs) (fun a ha b hb => h a (by simp [ha]) b (by simp [hb]))
      simp only [backLoop, ho]
      split
      · exact ih'
      · split
        · rfl
        · exact ih'

theorem numLoop_total {c : Ex → Ex → Option Int} {as bs : List Ex}
    (h : ∀ a ∈ as, ∀ b ∈ bs, (c a b).isSome) : (numLoop c as bs).isSome := by
  induction as generalizing bs with
  | nil => simp [numLoop]
  | cons a as ih =>
    cases bs with
    | nil => simp [numLoop]
    | cons b bs =>
      have h1 := h a (by simp) b (by simp)
      obtain ⟨o, ho⟩ := Option.isSome_iff_exists.1 h1
      have ih' := ih (bs := bs) (fun a ha b hb => h a (by simp [ha]) b (by simp [hb]))
      simp only [numLoop, ho]
      split
      · split
        · rfl
        · exact ih'
      · exact ih'

theorem cmpPlain_total {c : Ex → Ex → Option Int} {as bs : List Ex}
    (h : ∀ a ∈ as, ∀ b ∈ bs, (c a b).isSome) : (cmpPlain c as bs).isSome := by
  unfold cmpPlain
  split <;> [rfl; split <;> [rfl; exact lexLoop_total h]]

theorem cmpTimes_total {c : Ex → Ex → Option Int} {as bs : List Ex}
    (h : ∀ a ∈ as, ∀ b ∈ bs, (c a b).isSome) : (cmpTimes c as bs).isSome := by
  unfold cmpTimes
  obtain ⟨o, ho⟩ := Option.isSome_iff_exists.1 (backLoop_total (c := c) (as := as.reverse) (bs := bs.reverse)
    (by simpa using h))
  obtain ⟨o', ho'⟩ := Option.isSome_iff_exists.1 (numLoop_total h)
  rw [ho, ho']
  simp only
  split <;> [rfl; split <;> rfl]

/-- Parts of the `Times`-normalised operand. -/
def tParts : Ex → List Ex
  | .expr ps => if Ex.hasHead "System`Times" (.expr ps) then ps else [.sym "System`Times", .int 1, .expr ps]
  | e => [.sym "System`Times", .int 1, e]

/-- Parts of the `Power`-normalised operand. -/
def pParts : Ex → List Ex
  | .expr ps => if Ex.hasHead "System`Power" (.expr ps) then ps else [.sym "System`Power", .expr ps, .int 1]
  | e => [.sym "System`Power", e, .int 1]

/-- Symbol or expression. -/
def symOrExpr : Ex → Bool
  | .sym _ | .expr _ => true
  | _ => false

theorem hasHead_times_not_power {e : Ex} (h : e.hasHead "System`Times" = true) :
    e.hasHead "System`Power" = false := by
  unfold Ex.hasHead at *
  split at h
  · simp at h; simp [h]
  · simp at h

theorem hasHead_power_not_times {e : Ex} (h : e.hasHead "System`Power" = true) :
    e.hasHead "System`Times" = false := by
  unfold Ex.hasHead at *
  split at h
  · simp at h; simp [h]
  · simp at h

theorem wrapTimes_head (e : Ex) : (wrapTimes e).hasHead "System`Times" = true := by
  simp [wrapTimes, Ex.hasHead]
theorem wrapPower_head (e : Ex) : (wrapPower e).hasHead "System`Power" = true := by
  simp [wrapPower, Ex.hasHead]

theorem step_times_times (c : Ex → Ex → Option Int) {as bs : List Ex}
    (ha : Ex.hasHead "System`Times" (.expr as) = true) (hb : Ex.hasHead "System`Times" (.expr bs) = true) :
    exOrderStep c (.expr as) (.expr bs) = cmpTimes c as bs := by
  simp [exOrderStep, toFlt, ha, hb, hasHead_times_not_power ha, hasHead_times_not_power hb]

theorem step_power_power (c : Ex → Ex → Option Int) {as bs : List Ex}
    (ha : Ex.hasHead "System`Power" (.expr as) = true) (hb : Ex.hasHead "System`Power" (.expr bs) = true) :
    exOrderStep c (.expr as) (.expr bs) = cmpPlain c as bs := by
  simp [exOrderStep, toFlt, ha, hb, hasHead_power_not_times ha, hasHead_power_not_times hb]

/-- Components of the operands stay below the size of the operands. -/
theorem tParts_size {e p : Ex} (h : p ∈ tParts e) : p.size ≤ e.size := by
  cases e with
  | expr ps =>
    simp only [tParts] at h
    split at h
    · have := Ex.size_le_sizeL h; simp [Ex.size]; omega
    · simp at h; rcases h with rfl | rfl | rfl <;> simp [Ex.size]
  | cplx r i => simp [tParts] at h; rcases h with rfl | rfl | rfl <;> simp [Ex.size] <;> omega
  | _ => simp [tParts] at h; rcases h with rfl | rfl | rfl <;> simp [Ex.size]

theorem tParts_size_lt {e p : Ex} (he : e.hasHead "System`Times" = true) (h : p ∈ tParts e) :
    p.size < e.size := by
  cases e with
  | expr ps =>
    simp only [tParts, he, if_true] at h
    have := Ex.size_le_sizeL h; simp [Ex.size]; omega
  | _ => simp [Ex.hasHead] at he

theorem pParts_size {e p : Ex} (h : p ∈ pParts e) : p.size ≤ e.size := by
  cases e with
  | expr ps =>
    simp only [pParts] at h
    split at h
    · have := Ex.size_le_sizeL h; simp [Ex.size]; omega
    · simp at h; rcases h with rfl | rfl | rfl <;> simp [Ex.size]
  | cplx r i => simp [pParts] at h; rcases h with rfl | rfl | rfl <;> simp [Ex.size] <;> omega
  | _ => simp [pParts] at h; rcases h with rfl | rfl | rfl <;> simp [Ex.size]

theorem pParts_size_lt {e p : Ex} (he : e.hasHead "System`Power" = true) (h : p ∈ pParts e) :
    p.size < e.size := by
  cases e with
  | expr ps =>
    simp only [pParts, he, if_true] at h
    have := Ex.size_le_sizeL h; simp [Ex.size]; omega
  | _ => simp [Ex.hasHead] at he

/-- Two activations decide a comparison in which one side is a `Times` expression. -/
theorem twoStep_times (c : Ex → Ex → Option Int) (a b : Ex) (ha : symOrExpr a = true) (hb : symOrExpr b = true)
    (h : a.hasHead "System`Times" = true ∨ b.hasHead "System`Times" = true) :
    exOrderStep (exOrderStep c) a b =
      if a.hasHead "System`Times" = true ∧ b.hasHead "System`Times" = true
      then cmpTimes (exOrderStep c) (tParts a) (tParts b)
      else cmpTimes c (tParts a) (tParts b) := by
  cases a <;> simp [symOrExpr] at ha <;> cases b <;> simp [symOrExpr] at hb
  case sym.sym => simp [Ex.hasHead] at h
  case sym.expr s bs =>
    have hb' : Ex.hasHead "System`Times" (.expr bs) = true := by simpa [Ex.hasHead] using h
    have : Ex.hasHead "System`Times" (.sym s) = false := rfl
    simp only [this, Bool.false_eq_true, false_and, if_false, tParts, hb', if_true]
    rw [← step_times_times c (wrapTimes_head (.sym s)) hb']
    rw [exOrderStep]
    simp [toFlt, hb', hasHead_times_not_power hb']
    · rfl
    · simp
  case expr.sym as s =>
    have ha' : Ex.hasHead "System`Times" (.expr as) = true := by simpa [Ex.hasHead] using h
    have : Ex.hasHead "System`Times" (.sym s) = false := rfl
    simp only [this, Bool.false_eq_true, and_false, if_false, tParts, ha', if_true]
    rw [← step_times_times c ha' (wrapTimes_head (.sym s))]
    rw [exOrderStep]
    simp [toFlt, ha', hasHead_times_not_power ha']
    · rfl
    · simp
  case expr.expr as bs =>
    by_cases h1 : Ex.hasHead "System`Times" (.expr as) = true <;>
      by_cases h2 : Ex.hasHead "System`Times" (.expr bs) = true
    · simp only [h1, h2, and_self, if_true, tParts]
      exact step_times_times _ h1 h2
    · simp only [h1, h2, tParts, if_true, if_false, and_false, Bool.false_eq_true]
      rw [← step_times_times c h1 (wrapTimes_head (.expr bs))]
      rw [exOrderStep]
      simp [toFlt, h1, h2, hasHead_times_not_power h1]
      · rfl
      · simp
    · simp only [h1, h2, tParts, if_true, if_false, false_and, Bool.false_eq_true]
      rw [← step_times_times c (wrapTimes_head (.expr as)) h2]
      rw [exOrderStep]
      simp [toFlt, h1, h2]
      · rfl
      · simp
    · rcases h with h | h <;> contradiction

/-- Two activations decide a comparison in which no side is a `Times` expression, one a `Power` expression. -/
theorem twoStep_power (c : Ex → Ex → Option Int) (a b : Ex) (ha : symOrExpr a = true) (hb : symOrExpr b = true)
    (ta : a.hasHead "System`Times" = false) (tb : b.hasHead "System`Times" = false)
    (h : a.hasHead "System`Power" = true ∨ b.hasHead "System`Power" = true) :
    exOrderStep (exOrderStep c) a b =
      if a.hasHead "System`Power" = true ∧ b.hasHead "System`Power" = true
      then cmpPlain (exOrderStep c) (pParts a) (pParts b)
      else cmpPlain c (pParts a) (pParts b) := by
  cases a <;> simp [symOrExpr] at ha <;> cases b <;> simp [symOrExpr] at hb
  case sym.sym => simp [Ex.hasHead] at h
  case sym.expr s bs =>
    have hb' : Ex.hasHead "System`Power" (.expr bs) = true := by simpa [Ex.hasHead] using h
    have : Ex.hasHead "System`Power" (.sym s) = false := rfl
    simp only [this, Bool.false_eq_true, false_and, if_false, pParts, hb', if_true]
    rw [← step_power_power c (wrapPower_head (.sym s)) hb']
    rw [exOrderStep]
    simp [toFlt, hb']
    · rfl
    · simp
  case expr.sym as s =>
    have ha' : Ex.hasHead "System`Power" (.expr as) = true := by simpa [Ex.hasHead] using h
    have : Ex.hasHead "System`Power" (.sym s) = false := rfl
    simp only [this, Bool.false_eq_true, and_false, if_false, pParts, ha', if_true]
    rw [← step_power_power c ha' (wrapPower_head (.sym s))]
    rw [exOrderStep]
    simp [toFlt, ha']
    · rfl
    · simp
  case expr.expr as bs =>
    by_cases h1 : Ex.hasHead "System`Power" (.expr as) = true <;>
      by_cases h2 : Ex.hasHead "System`Power" (.expr bs) = true
    · simp only [h1, h2, and_self, if_true, pParts]
      exact step_power_power _ h1 h2
    · simp only [h1, h2, pParts, if_true, if_false, and_false, Bool.false_eq_true]
      rw [← step_power_power c h1 (wrapPower_head (.expr bs))]
      rw [exOrderStep]
      simp [toFlt, h1, h2, ta, tb]
      · rfl
      · simp
    · simp only [h1, h2, pParts, if_true, if_false, false_and, Bool.false_eq_true]
      rw [← step_power_power c (wrapPower_head (.expr as)) h2]
      rw [exOrderStep]
      simp [toFlt, h1, h2, ta, tb]
      · rfl
      · simp
    · rcases h with h | h <;> contradiction

/-- One activation decides all other comparisons. -/
theorem step_other_isSome (c : Ex → Ex → Option Int) (a b : Ex)
    (ta : a.hasHead "System`Times" = false) (tb : b.hasHead "System`Times" = false)
    (pa : a.hasHead "System`Power" = false) (pb : b.hasHead "System`Power" = false)
    (h : ∀ as bs, a = .expr as → b = .expr bs → ∀ x ∈ as, ∀ y ∈ bs, (c x y).isSome) :
    (exOrderStep c a b).isSome := by
  unfold exOrderStep
  split
  · rfl
  · split
    · simp only; split <;> [rfl; split <;> rfl]
    · split <;> try rfl
      · rename_i as bs _ _ _ _
        simp [ta, tb, pa, pb]
        exact cmpPlain_total (h _ _ rfl rfl)
      all_goals try simp [ta, tb, pa, pb]
      all_goals split <;> rfl

theorem step_not_symOrExpr_isSome (c : Ex → Ex → Option Int) (a b : Ex)
    (h : symOrExpr a = false ∨ symOrExpr b = false) : (exOrderStep c a b).isSome := by
  unfold exOrderStep
  split
  · rfl
  · split
    · simp only; split <;> [rfl; split <;> rfl]
    · split <;> first
        | rfl
        | (simp [symOrExpr] at h; done)
        | (split <;> rfl)

theorem exOrderF_total (n : Nat) : ∀ a b : Ex, a.size + b.size ≤ n → (exOrderF (2 * n) a b).isSome := by
  induction n with
  | zero => intro a b h; have := a.size_pos; omega
  | succ n ih =>
    intro a b h
    rw [show 2 * (n + 1) = 2 * n + 1 + 1 by ring]
    change (exOrderStep (exOrderStep (exOrderF (2 * n))) a b).isSome
    have up : ∀ x y, (exOrderF (2*n) x y).isSome → (exOrderStep (exOrderF (2 * n)) x y).isSome := by
      intro x y hxy
      obtain ⟨r, hr⟩ := Option.isSome_iff_exists.1 hxy
      have := exOrderF_succ hr
      rw [Option.isSome_iff_exists]; exact ⟨r, this⟩
    by_cases ha : symOrExpr a = true
    swap
    · exact step_not_symOrExpr_isSome _ _ _ (Or.inl (by simpa using ha))
    by_cases hb : symOrExpr b = true
    swap
    · exact step_not_symOrExpr_isSome _ _ _ (Or.inr (by simpa using hb))
    by_cases ht : a.hasHead "System`Times" = true ∨ b.hasHead "System`Times" = true
    · rw [twoStep_times _ a b ha hb ht]
      have hc : ∀ x ∈ tParts a, ∀ y ∈ tParts b, (exOrderF (2*n) x y).isSome := by
        intro x hx y hy
        apply ih
        have h1 := tParts_size hx
        have h2 := tParts_size hy
        rcases ht with ht | ht
        · have := tParts_size_lt ht hx; omega
        · have := tParts_size_lt ht hy; omega
      split
      · exact cmpTimes_total (fun x hx y hy => up x y (hc x hx y hy))
      · exact cmpTimes_total hc
    · have ta : a.hasHead "System`Times" = false := by by_contra h; exact ht (Or.inl (by simpa using h))
      have tb : b.hasHead "System`Times" = false := by by_contra h; exact ht (Or.inr (by simpa using h))
      by_cases hp : a.hasHead "System`Power" = true ∨ b.hasHead "System`Power" = true
      · rw [twoStep_power _ a b ha hb ta tb hp]
        have hc : ∀ x ∈ pParts a, ∀ y ∈ pParts b, (exOrderF (2*n) x y).isSome := by
          intro x hx y hy
          apply ih
          have h1 := pParts_size hx
          have h2 := pParts_size hy
          rcases hp with hp | hp
          · have := pParts_size_lt hp hx; omega
          · have := pParts_size_lt hp hy; omega
        split
        · exact cmpPlain_total (fun x hx y hy => up x y (hc x hx y hy))
        · exact cmpPlain_total hc
      · have pa : a.hasHead "System`Power" = false := by by_contra h; exact hp (Or.inl (by simpa using h))
        have pb : b.hasHead "System`Power" = false := by by_contra h; exact hp (Or.inr (by simpa using h))
        refine step_other_isSome _ a b ta tb pa pb ?_
        rintro as bs rfl rfl x hx y hy
        apply up
        apply ih
        have h1 := Ex.size_le_sizeL hx
        have h2 := Ex.size_le_sizeL hy
        simp [Ex.size] at h; omega

/-- Any sufficient depth gives the same answer. -/
theorem exOrderF_eq {n : Nat} {a b : Ex} (h : 2 * (a.size + b.size) ≤ n) :
    exOrderF n a b = some (exOrder a b) := by
  obtain ⟨r, hr⟩ := Option.isSome_iff_exists.1 (exOrderF_total _ a b le_rfl)
  have := exOrderF_mono h hr
  rw [this, exOrder, hr]; rfl

theorem exOrderF_some_eq {n : Nat} {a b : Ex} {r : Int} (h : exOrderF n a b = some r) : exOrder a b = r := by
  have h1 := exOrderF_mono (Nat.le_max_left n (2 * (a.size + b.size))) h
  have h2 := exOrderF_eq (Nat.le_max_right n (2 * (a.size + b.size)))
  rw [h1] at h2; exact (Option.some.inj h2).symm

/-- The recursion equation of `ExOrder`. -/
theorem exOrder_fix (a b : Ex) : exOrderStep (fun a b => some (exOrder a b)) a b = some (exOrder a b) := by
  have h := exOrderF_eq (a := a) (b := b) (n := 2 * (a.size + b.size) + 1) (by omega)
  exact exOrderStep_mono (fun a b r hr => by rw [exOrderF_some_eq hr]) a b _ h

/-! ### Pure loops -/

def lexP (f : Ex → Ex → Int) : List Ex → List Ex → Int
  | a :: as, b :: bs => if f a b ≠ 0 then f a b else lexP f as bs
  | _, _ => 0

/-- comparison with pairs of numbers ignored -/
def skipNum (f : Ex → Ex → Int) (a b : Ex) : Int := if a.numberQ && b.numberQ then 0 else f a b
/-- comparison of numbers only -/
def onlyNum (f : Ex → Ex → Int) (a b : Ex) : Int := if a.numberQ && b.numberQ then f a b else 0

theorem lexLoop_pure (f : Ex → Ex → Int) (as bs : List Ex) :
    lexLoop (fun a b => some (f a b)) as bs = some (lexP f as bs) := by
  induction as generalizing bs with
  | nil => simp [lexLoop, lexP]
  | cons a as ih =>
    cases bs with
    | nil => simp [lexLoop, lexP]
    | cons b bs => simp only [lexLoop, lexP]; split <;> [rfl; exact ih bs]

theorem backLoop_pure (f : Ex → Ex → Int) (as bs : List Ex) :
    backLoop (fun a b => some (f a b)) as bs = some (lexP (skipNum f) as bs) := by
  induction as generalizing bs with
  | nil => simp [backLoop, lexP]
  | cons a as ih =>
    cases bs with
    | nil => simp [backLoop, lexP]
    | cons b bs =>
      simp only [backLoop, lexP, skipNum]
      by_cases hn : (a.numberQ && b.numberQ) = true
      · simp only [hn, if_true, ne_eq, not_true_eq_false, if_false]; exact ih bs
      · simp only [hn, if_false, Bool.false_eq_true]; split <;> [rfl; exact ih bs]

theorem numLoop_pure (f : Ex → Ex → Int) (as bs : List Ex) :
    numLoop (fun a b => some (f a b)) as bs = some (lexP (onlyNum f) as bs) := by
  induction as generalizing bs with
  | nil => simp [numLoop, lexP]
  | cons a as ih =>
    cases bs with
    | nil => simp [numLoop, lexP]
    | cons b bs =>
      simp only [numLoop, lexP, onlyNum]
      by_cases hn : (a.numberQ && b.numberQ) = true
      · simp only [hn, if_true]; split <;> [rfl; exact ih bs]
      · simp only [hn, if_false, Bool.false_eq_true, ne_eq, not_true_eq_false]; exact ih bs

def plainP (f : Ex → Ex → Int) (as bs : List Ex) : Int :=
  if as.length < bs.length then 1 else if as.length > bs.length then -1 else lexP f as bs

/-- lexicographic combination of two comparison results -/
def thenI (p q : Int) : Int := if p ≠ 0 then p else q

def timesP (f : Ex → Ex → Int) (as bs : List Ex) : Int :=
  thenI (lexP (skipNum f) as.reverse bs.reverse) (thenI (lexP (onlyNum f) as bs) (lenCmp as bs))

theorem cmpPlain_pure (f : Ex → Ex → Int) (as bs : List Ex) :
    cmpPlain (fun a b => some (f a b)) as bs = some (plainP f as bs) := by
  unfold cmpPlain plainP
  split <;> [rfl; split <;> [rfl; exact lexLoop_pure f as bs]]

theorem cmpTimes_pure (f : Ex → Ex → Int) (as bs : List Ex) :
    cmpTimes (fun a b => some (f a b)) as bs = some (timesP f as bs) := by
  unfold cmpTimes timesP thenI
  rw [backLoop_pure, numLoop_pure]
  simp only
  split <;> [rfl; split <;> rfl]

/-! ### Equations of the order -/

theorem exOrder_fix2 (a b : Ex) :
    exOrderStep (exOrderStep (fun a b => some (exOrder a b))) a b = some (exOrder a b) := by
  have : (exOrderStep (fun a b => some (exOrder a b))) = (fun a b => some (exOrder a b)) := by
    funext a b; exact exOrder_fix a b
  rw [this]; exact exOrder_fix a b

theorem step_fix_eq : (exOrderStep (fun a b => some (exOrder a b))) = (fun a b => some (exOrder a b)) := by
  funext a b; exact exOrder_fix a b

theorem exOrder_times {a b : Ex} (ha : symOrExpr a = true) (hb : symOrExpr b = true)
    (h : a.hasHead "System`Times" = true ∨ b.hasHead "System`Times" = true) :
    exOrder a b = timesP exOrder (tParts a) (tParts b) := by
  have := exOrder_fix2 a b
  rw [twoStep_times _ a b ha hb h, step_fix_eq, cmpTimes_pure] at this
  simpa using this.symm

theorem exOrder_power {a b : Ex} (ha : symOrExpr a = true) (hb : symOrExpr b = true)
    (ta : a.hasHead "System`Times" = false) (tb : b.hasHead "System`Times" = false)
    (h : a.hasHead "System`Power" = true ∨ b.hasHead "System`Power" = true) :
    exOrder a b = plainP exOrder (pParts a) (pParts b) := by
  have := exOrder_fix2 a b
  rw [twoStep_power _ a b ha hb ta tb h, step_fix_eq, cmpPlain_pure] at this
  simpa using this.symm

theorem exOrder_expr {as bs : List Ex}
    (ta : Ex.hasHead "System`Times" (.expr as) = false) (tb : Ex.hasHead "System`Times" (.expr bs) = false)
    (pa : Ex.hasHead "System`Power" (.expr as) = false) (pb : Ex.hasHead "System`Power" (.expr bs) = false) :
    exOrder (.expr as) (.expr bs) = plainP exOrder as bs := by
  have := exOrder_fix (.expr as) (.expr bs)
  simp [exOrderStep, toFlt, ta, tb, pa, pb, cmpPlain_pure] at this
  exact this.symm

theorem exOrder_sym (x y : String) : exOrder (.sym x) (.sym y) = compareStrings x y := by
  have := exOrder_fix (.sym x) (.sym y); simpa [exOrderStep, toFlt] using this.symm
theorem exOrder_str (x y : String) : exOrder (.str x) (.str y) = compareStrings x y := by
  have := exOrder_fix (.str x) (.str y); simpa [exOrderStep, toFlt] using this.symm
theorem exOrder_int (x y : Int) : exOrder (.int x) (.int y) = cmpInt y x := by
  have := exOrder_fix (.int x) (.int y); simpa [exOrderStep] using this.symm
theorem exOrder_sym_expr {s : String} {bs : List Ex} (tb : Ex.hasHead "System`Times" (.expr bs) = false)
    (pb : Ex.hasHead "System`Power" (.expr bs) = false) : exOrder (.sym s) (.expr bs) = 1 := by
  have := exOrder_fix (.sym s) (.expr bs); simpa [exOrderStep, toFlt, tb, pb] using this.symm
theorem exOrder_expr_sym {s : String} {bs : List Ex} (tb : Ex.hasHead "System`Times" (.expr bs) = false)
    (pb : Ex.hasHead "System`Power" (.expr bs) = false) : exOrder (.expr bs) (.sym s) = -1 := by
  have := exOrder_fix (.expr bs) (.sym s); simpa [exOrderStep, toFlt, tb, pb] using this.symm

end Expreduce
