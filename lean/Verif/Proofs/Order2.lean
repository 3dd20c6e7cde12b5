import Verif.Proofs.Order

/-! Antisymmetry of the canonical order. -/

namespace Expreduce

/-- both directions refuse, or both answer with opposite signs -/
def AS (p q : Int) : Prop := (p = -2 ∧ q = -2) ∨ ((p = -1 ∨ p = 0 ∨ p = 1) ∧ q = -p)

theorem AS.symm {p q : Int} (h : AS p q) : AS q p := by unfold AS at *; omega
theorem AS.zero : AS 0 0 := by unfold AS; omega

theorem AS.thenI {p q p' q' : Int} (h : AS p q) (h' : AS p' q') : AS (thenI p p') (thenI q q') := by
  unfold AS Expreduce.thenI at *; split <;> split <;> omega

theorem u8_tri (x y : UInt8) : x < y ∧ ¬ y < x ∧ x ≠ y ∨ x = y ∨ y < x ∧ ¬ x < y ∧ x ≠ y := by
  rw [UInt8.lt_iff_toNat_lt, UInt8.lt_iff_toNat_lt, ne_eq, ← UInt8.toNat_inj]
  omega

theorem compareBytes_AS (a b : List UInt8) : AS (compareBytes a b) (compareBytes b a) := by
  induction a generalizing b with
  | nil => cases b <;> simp [compareBytes, AS]
  | cons x a ih =>
    cases b with
    | nil => simp [compareBytes, AS]
    | cons y b =>
      simp only [compareBytes, gt_iff_lt]
      rcases u8_tri x y with h | h | h
      · simp [h, AS]
      · subst h; simp [ih b]
      · simp [h, AS]

theorem compareBytes_eq_zero (a b : List UInt8) : compareBytes a b = 0 ↔ a = b := by
  induction a generalizing b with
  | nil => cases b <;> simp [compareBytes]
  | cons x a ih =>
    cases b with
    | nil => simp [compareBytes]
    | cons y b =>
      simp only [compareBytes, gt_iff_lt]
      rcases u8_tri x y with h | h | h
      · simp [h]
      · subst h; simp [ih b]
      · simp [h]

theorem bytes_injective {a b : String} (h : bytes a = bytes b) : a = b := by
  unfold bytes at h
  have h1 : a.toByteArray = b.toByteArray := by
    have : a.toByteArray.data = b.toByteArray.data := Array.toList_inj.1 h
    cases ha : a.toByteArray; cases hb : b.toByteArray
    rw [ha, hb] at this; simp at this; rw [this]
  exact String.toByteArray_inj.1 h1

theorem compareStrings_AS (a b : String) : AS (compareStrings a b) (compareStrings b a) :=
  compareBytes_AS _ _

theorem compareStrings_eq_zero (a b : String) : compareStrings a b = 0 ↔ a = b := by
  unfold compareStrings; rw [compareBytes_eq_zero]
  exact ⟨bytes_injective, fun h => by rw [h]⟩

/-! numbers -/

/-- result of comparing two converted numbers, not both integers -/
def numC (x y : Rat) (ia ib : Bool) : Int :=
  if cmpRat y x = 0 ∧ (ia = true ∧ ib = false) then 1
  else if cmpRat y x = 0 ∧ (ia = false ∧ ib = true) then -1
  else cmpRat y x

theorem exOrder_num {a b : Ex} {x y : Rat} (ha : toFlt a = some x) (hb : toFlt b = some y)
    (h : ¬ (isInt a = true ∧ isInt b = true)) : exOrder a b = numC x y (isInt a) (isInt b) := by
  have := exOrder_fix a b
  unfold exOrderStep at this
  split at this
  · simp [isInt] at h
  · rw [ha, hb] at this
    simp only at this
    unfold numC
    split_ifs at this ⊢ <;> simpa using this.symm

theorem exOrder_num_right {a b : Ex} {x : Rat} (ha : toFlt a = some x) (hb : toFlt b = none)
    (h : b.numberQ = false) : exOrder a b = 1 := by
  have := exOrder_fix a b
  cases b <;> simp [Ex.numberQ] at h <;> cases a <;> simp [toFlt] at ha <;>
    simp [exOrderStep, toFlt, ha] at this ⊢ <;> exact this.symm

theorem exOrder_num_left {a b : Ex} {x : Rat} (ha : toFlt a = some x) (hb : toFlt b = none)
    (h : b.numberQ = false) : exOrder b a = -1 := by
  have := exOrder_fix b a
  cases b <;> simp [Ex.numberQ] at h <;> cases a <;> simp [toFlt] at ha <;>
    simp [exOrderStep, toFlt, ha] at this <;> exact this.symm

theorem exOrder_bad_right {a b : Ex} (hb : toFlt b = none)
    (h : b.numberQ = true) : exOrder a b = -2 := by
  have := exOrder_fix a b
  cases b <;> simp [Ex.numberQ] at h <;> simp [toFlt] at hb
  cases a <;> simp [exOrderStep, toFlt, hb] at this <;> exact this.symm

theorem exOrder_bad_left {a b : Ex} (hb : toFlt b = none)
    (h : b.numberQ = true) : exOrder b a = -2 := by
  have := exOrder_fix b a
  cases b <;> simp [Ex.numberQ] at h <;> simp [toFlt] at hb
  cases a <;> simp [exOrderStep, toFlt, hb] at this <;> exact this.symm

theorem exOrder_str_symOrExpr {s : String} {b : Ex} (h : symOrExpr b = true) : exOrder (.str s) b = 1 := by
  have := exOrder_fix (.str s) b
  cases b <;> simp [symOrExpr] at h <;> simp [exOrderStep, toFlt] at this <;> exact this.symm

theorem exOrder_symOrExpr_str {s : String} {b : Ex} (h : symOrExpr b = true) : exOrder b (.str s) = -1 := by
  have := exOrder_fix b (.str s)
  cases b <;> simp [symOrExpr] at h <;> simp [exOrderStep, toFlt] at this <;> exact this.symm

theorem cmpInt_AS (x y : Int) : AS (cmpInt y x) (cmpInt x y) := by
  unfold AS cmpInt; split_ifs <;> omega

theorem cmpRat_cases (y x : Rat) : (cmpRat y x = -1 ∧ y < x) ∨ (cmpRat y x = 0 ∧ y = x) ∨ (cmpRat y x = 1 ∧ x < y) := by
  unfold cmpRat
  rcases lt_trichotomy y x with h | h | h
  · simp [h]
  · simp [h]
  · simp [h, lt_asymm h, (ne_of_lt h).symm]

theorem numC_AS (x y : Rat) (ia ib : Bool) : AS (numC x y ia ib) (numC y x ib ia) := by
  unfold AS numC
  rcases cmpRat_cases y x with h | h | h <;> rcases cmpRat_cases x y with h' | h' | h' <;>
    first
    | (exfalso; have := h.2; have := h'.2; linarith)
    | (rw [h.1, h'.1]; cases ia <;> cases ib <;> simp)

/-! loops -/

theorem lexP_AS {f : Ex → Ex → Int} {as bs : List Ex} (h : ∀ a ∈ as, ∀ b ∈ bs, AS (f a b) (f b a)) :
    AS (lexP f as bs) (lexP f bs as) := by
  induction as generalizing bs with
  | nil => cases bs <;> exact AS.zero
  | cons a as ih =>
    cases bs with
    | nil => exact AS.zero
    | cons b bs =>
      simp only [lexP]
      exact AS.thenI (h a (by simp) b (by simp)) (ih (fun a ha b hb => h a (by simp [ha]) b (by simp [hb])))

theorem skipNum_AS {f : Ex → Ex → Int} {a b : Ex} (h : AS (f a b) (f b a)) :
    AS (skipNum f a b) (skipNum f b a) := by
  unfold skipNum; rw [Bool.and_comm]; split <;> [exact AS.zero; exact h]

theorem onlyNum_AS {f : Ex → Ex → Int} {a b : Ex} (h : AS (f a b) (f b a)) :
    AS (onlyNum f a b) (onlyNum f b a) := by
  unfold onlyNum; rw [Bool.and_comm]; split <;> [exact h; exact AS.zero]

theorem lenCmp_AS (as bs : List Ex) : AS (lenCmp as bs) (lenCmp bs as) := by
  unfold AS lenCmp; split_ifs <;> omega

theorem plainP_AS {f : Ex → Ex → Int} {as bs : List Ex} (h : ∀ a ∈ as, ∀ b ∈ bs, AS (f a b) (f b a)) :
    AS (plainP f as bs) (plainP f bs as) := by
  have := lexP_AS h
  unfold plainP
  split_ifs <;> first | exact this | (exfalso; omega) | (unfold AS; omega)

theorem timesP_AS {f : Ex → Ex → Int} {as bs : List Ex} (h : ∀ a ∈ as, ∀ b ∈ bs, AS (f a b) (f b a)) :
    AS (timesP f as bs) (timesP f bs as) := by
  unfold timesP
  refine AS.thenI (lexP_AS ?_) (AS.thenI (lexP_AS ?_) (lenCmp_AS as bs))
  · intro a ha b hb; exact skipNum_AS (h a (by simpa using ha) b (by simpa using hb))
  · intro a ha b hb; exact onlyNum_AS (h a ha b hb)

theorem exOrder_AS_aux (n : Nat) : ∀ a b : Ex, a.size + b.size ≤ n → AS (exOrder a b) (exOrder b a) := by
  induction n with
  | zero => intro a b h; have := a.size_pos; omega
  | succ n ih =>
    intro a b h
    by_cases na : a.numberQ = true
    · cases ha : toFlt a with
      | none => rw [exOrder_bad_left ha na, exOrder_bad_right ha na]; unfold AS; omega
      | some x =>
        by_cases nb : b.numberQ = true
        · cases hb : toFlt b with
          | none => rw [exOrder_bad_left hb nb, exOrder_bad_right hb nb]; unfold AS; omega
          | some y =>
            by_cases hi : isInt a = true ∧ isInt b = true
            · cases a <;> simp [isInt] at hi
              cases b <;> simp at hi
              rw [exOrder_int, exOrder_int]; exact cmpInt_AS _ _
            · rw [exOrder_num ha hb hi, exOrder_num hb ha (fun h => hi h.symm)]
              exact numC_AS _ _ _ _
        · have nb' : b.numberQ = false := by simpa using nb
          have hb : toFlt b = none := by cases b <;> simp [Ex.numberQ] at nb' <;> rfl
          rw [exOrder_num_right ha hb nb', exOrder_num_left ha hb nb']; unfold AS; omega
    · have na' : a.numberQ = false := by simpa using na
      have ha : toFlt a = none := by cases a <;> simp [Ex.numberQ] at na' <;> rfl
      by_cases nb : b.numberQ = true
      · cases hb : toFlt b with
        | none => rw [exOrder_bad_left hb nb, exOrder_bad_right hb nb]; unfold AS; omega
        | some y => rw [exOrder_num_right hb ha na', exOrder_num_left hb ha na']; unfold AS; omega
      · have nb' : b.numberQ = false := by simpa using nb
        by_cases sa : symOrExpr a = true
        · by_cases sb : symOrExpr b = true
          · by_cases ht : a.hasHead "System`Times" = true ∨ b.hasHead "System`Times" = true
            · rw [exOrder_times sa sb ht, exOrder_times sb sa ht.symm]
              refine timesP_AS ?_
              intro x hx y hy
              apply ih
              have h1 := tParts_size hx
              have h2 := tParts_size hy
              rcases ht with ht | ht
              · have := tParts_size_lt ht hx; omega
              · have := tParts_size_lt ht hy; omega
            · have ta : a.hasHead "System`Times" = false := by by_contra h; exact ht (Or.inl (by simpa using h))
              have tb : b.hasHead "System`Times" = false := by by_contra h; exact ht (Or.inr (by simpa using h))
              by_cases hp : a.hasHead "System`Power" = true ∨ b.hasHead "System`Power" = true
              · rw [exOrder_power sa sb ta tb hp, exOrder_power sb sa tb ta hp.symm]
                refine plainP_AS ?_
                intro x hx y hy
                apply ih
                have h1 := pParts_size hx
                have h2 := pParts_size hy
                rcases hp with hp | hp
                · have := pParts_size_lt hp hx; omega
                · have := pParts_size_lt hp hy; omega
              · have pa : a.hasHead "System`Power" = false := by by_contra h; exact hp (Or.inl (by simpa using h))
                have pb : b.hasHead "System`Power" = false := by by_contra h; exact hp (Or.inr (by simpa using h))
                cases a <;> simp [symOrExpr] at sa <;> cases b <;> simp [symOrExpr] at sb
                · rw [exOrder_sym, exOrder_sym]; exact compareStrings_AS _ _
                · rw [exOrder_sym_expr tb pb, exOrder_expr_sym tb pb]; unfold AS; omega
                · rw [exOrder_sym_expr ta pa, exOrder_expr_sym ta pa]; unfold AS; omega
                · rw [exOrder_expr ta tb pa pb, exOrder_expr tb ta pb pa]
                  refine plainP_AS ?_
                  intro x hx y hy
                  apply ih
                  have h1 := Ex.size_le_sizeL hx
                  have h2 := Ex.size_le_sizeL hy
                  simp [Ex.size] at h; omega
          · cases b <;> simp [symOrExpr, Ex.numberQ] at sb nb'
            rw [exOrder_str_symOrExpr sa, exOrder_symOrExpr_str sa]; unfold AS; omega
        · cases a <;> simp [symOrExpr, Ex.numberQ] at sa na'
          by_cases sb : symOrExpr b = true
          · rw [exOrder_str_symOrExpr sb, exOrder_symOrExpr_str sb]; unfold AS; omega
          · cases b <;> simp [symOrExpr, Ex.numberQ] at sb nb'
            rw [exOrder_str, exOrder_str]; exact compareStrings_AS _ _

theorem exOrder_AS (a b : Ex) : AS (exOrder a b) (exOrder b a) := exOrder_AS_aux _ a b le_rfl

end Expreduce
