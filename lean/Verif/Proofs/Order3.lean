import Verif.Proofs.Order2
import Verif.Spec.Order

/-! Transitivity of the canonical order on its domain. -/

namespace Expreduce

/-- consistency of the three results `p = f a b`, `q = f b c`, `r = f a c` -/
def Tri (p q r : Int) : Prop :=
  (p < 0 ∨ q < 0 ∨ (0 ≤ r ∧ (r ≠ 0 ∨ (p = 0 ∧ q = 0)))) ∧
  (0 < p ∨ 0 < q ∨ (r ≤ 0 ∧ (r ≠ 0 ∨ (p = 0 ∧ q = 0)))) ∧ (p ≠ 0 ∨ r = q) ∧ (q ≠ 0 ∨ r = p)

theorem Tri.zero : Tri 0 0 0 := by unfold Tri; omega

theorem Tri.thenI {p q r p' q' r' : Int} (h : Tri p q r) (h' : p = 0 → q = 0 → r = 0 → Tri p' q' r') :
    Tri (thenI p p') (thenI q q') (thenI r r') := by
  unfold Expreduce.thenI
  by_cases hp : p = 0 <;> by_cases hq : q = 0
  · have hr : r = 0 := by unfold Tri at h; omega
    simpa [hp, hq, hr] using h' hp hq hr
  · unfold Tri at *; split_ifs <;> omega
  · unfold Tri at *; split_ifs <;> omega
  · unfold Tri at *; split_ifs <;> omega

theorem compareBytes_Tri (a b c : List UInt8) :
    Tri (compareBytes a b) (compareBytes b c) (compareBytes a c) := by
  induction a generalizing b c with
  | nil => cases b <;> cases c <;> simp [compareBytes, Tri]
  | cons x a ih =>
    cases b with
    | nil => cases c <;> simp [compareBytes, Tri]
    | cons y b =>
      cases c with
      | nil => simp [compareBytes, Tri]
      | cons z c =>
        simp only [compareBytes, gt_iff_lt]
        have ih := ih b c
        simp only [UInt8.lt_iff_toNat_lt]
        unfold Tri at *
        split_ifs <;> omega

theorem compareStrings_Tri (a b c : String) :
    Tri (compareStrings a b) (compareStrings b c) (compareStrings a c) := compareBytes_Tri _ _ _

theorem cmpInt_Tri (a b c : Int) : Tri (cmpInt b a) (cmpInt c b) (cmpInt c a) := by
  unfold Tri cmpInt; split_ifs <;> omega

theorem cmpRat_Tri (a b c : Rat) : Tri (cmpRat b a) (cmpRat c b) (cmpRat c a) := by
  rcases cmpRat_cases b a with h | h | h <;> rcases cmpRat_cases c b with h' | h' | h' <;>
    rcases cmpRat_cases c a with h'' | h'' | h'' <;> rw [h.1, h'.1, h''.1] <;>
    first
    | (unfold Tri; omega)
    | (exfalso; have := h.2; have := h'.2; have := h''.2; linarith)

def asInt : Ex → Option Int
  | .int n => some n
  | _ => none

/-- tie breaking between numbers of equal converted value -/
def tieI : Option Int → Option Int → Int
  | some x, some y => cmpInt y x
  | some _, none => 1
  | none, some _ => -1
  | none, none => 0

def numTie (a b : Ex) : Int := tieI (asInt a) (asInt b)

theorem numTie_Tri (a b c : Ex) : Tri (numTie a b) (numTie b c) (numTie a c) := by
  unfold numTie
  cases asInt a <;> cases asInt b <;> cases asInt c <;> simp only [tieI] <;> first
    | exact cmpInt_Tri _ _ _
    | (unfold Tri; omega)

theorem exOrder_numbers {a b : Ex} {x y : Rat} (ha : toFlt a = some x) (hb : toFlt b = some y) :
    exOrder a b = thenI (cmpRat y x) (numTie a b) := by
  by_cases hi : isInt a = true ∧ isInt b = true
  · cases a <;> simp [isInt] at hi
    cases b <;> simp at hi
    rename_i m n
    simp [toFlt] at ha hb
    subst ha hb
    rw [exOrder_int]
    unfold thenI numTie asInt tieI
    rcases cmpRat_cases (rnd53 (n:Rat)) (rnd53 (m:Rat)) with h | h | h
    · have : n < m := by
        by_contra hc
        have := rnd53_mono (x := (m:Rat)) (y := (n:Rat)) (by exact_mod_cast not_lt.1 hc)
        exact absurd h.2 (not_lt.2 this)
      rw [h.1]; simp [cmpInt, this]
    · rw [h.1]; simp
    · have : m < n := by
        by_contra hc
        have := rnd53_mono (x := (n:Rat)) (y := (m:Rat)) (by exact_mod_cast not_lt.1 hc)
        exact absurd h.2 (not_lt.2 this)
      rw [h.1]; unfold cmpInt; split_ifs <;> omega
  · rw [exOrder_num ha hb hi]
    unfold numC thenI
    cases a <;> cases b <;> simp [isInt, numTie, asInt, tieI, toFlt] at * <;> (intro h; exact h.symm)

theorem numbers_Tri {a b c : Ex} {x y z : Rat} (ha : toFlt a = some x) (hb : toFlt b = some y)
    (hc : toFlt c = some z) : Tri (exOrder a b) (exOrder b c) (exOrder a c) := by
  rw [exOrder_numbers ha hb, exOrder_numbers hb hc, exOrder_numbers ha hc]
  exact Tri.thenI (cmpRat_Tri _ _ _) (fun _ _ _ => numTie_Tri _ _ _)

/-! ### domain -/

theorem Good.toFlt {a : Ex} (h : Good a) (n : a.numberQ = true) : ∃ x, toFlt a = some x := by
  cases h with
  | cplx re im h => cases re <;> simp [realNum] at h <;> simp [Expreduce.toFlt]
  | _ => simp [Ex.numberQ] at n <;> simp [Expreduce.toFlt]

theorem Good.tParts {a : Ex} (h : Good a) : ∀ x ∈ tParts a, Good x := by
  intro x hx
  cases h with
  | expr ps h1 =>
    simp only [Expreduce.tParts] at hx
    split at hx
    · exact h1 x hx
    · simp at hx; rcases hx with rfl | rfl | rfl
      · exact .sym _
      · exact .int _
      · exact .expr _ h1
  | cplx re im h =>
    simp [Expreduce.tParts] at hx; rcases hx with rfl | rfl | rfl
    · exact .sym _
    · exact .int _
    · exact .cplx _ _ h
  | _ => simp [Expreduce.tParts] at hx; rcases hx with rfl | rfl | rfl <;> constructor

theorem Good.pParts {a : Ex} (h : Good a) : ∀ x ∈ pParts a, Good x := by
  intro x hx
  cases h with
  | expr ps h1 =>
    simp only [Expreduce.pParts] at hx
    split at hx
    · exact h1 x hx
    · simp at hx; rcases hx with rfl | rfl | rfl
      · exact .sym _
      · exact .expr _ h1
      · exact .int _
  | cplx re im h =>
    simp [Expreduce.pParts] at hx; rcases hx with rfl | rfl | rfl
    · exact .sym _
    · exact .cplx _ _ h
    · exact .int _
  | _ => simp [Expreduce.pParts] at hx; rcases hx with rfl | rfl | rfl <;> constructor

/-! ### no refusal on the domain -/

theorem lexP_ne {f : Ex → Ex → Int} {as bs : List Ex} (h : ∀ a ∈ as, ∀ b ∈ bs, f a b ≠ -2) :
    lexP f as bs ≠ -2 := by
  induction as generalizing bs with
  | nil => cases bs <;> simp [lexP]
  | cons a as ih =>
    cases bs with
    | nil => simp [lexP]
    | cons b bs =>
      simp only [lexP]
      split
      · exact h a (by simp) b (by simp)
      · exact ih (fun a ha b hb => h a (by simp [ha]) b (by simp [hb]))

theorem plainP_ne {f : Ex → Ex → Int} {as bs : List Ex} (h : ∀ a ∈ as, ∀ b ∈ bs, f a b ≠ -2) :
    plainP f as bs ≠ -2 := by
  unfold plainP; split_ifs <;> [decide; decide; exact lexP_ne h]

theorem timesP_ne {f : Ex → Ex → Int} {as bs : List Ex} (h : ∀ a ∈ as, ∀ b ∈ bs, f a b ≠ -2) :
    timesP f as bs ≠ -2 := by
  have h1 : lexP (skipNum f) as.reverse bs.reverse ≠ -2 := lexP_ne (by
    intro a ha b hb; unfold skipNum; split <;> [decide; exact h a (by simpa using ha) b (by simpa using hb)])
  have h2 : lexP (onlyNum f) as bs ≠ -2 := lexP_ne (by
    intro a ha b hb; unfold onlyNum; split <;> [exact h a ha b hb; decide])
  unfold timesP thenI lenCmp
  split_ifs <;> first | exact h1 | exact h2 | decide

theorem numTie_ne (a b : Ex) : numTie a b ≠ -2 := by
  unfold numTie tieI cmpInt; split <;> (try split_ifs) <;> decide

theorem exOrder_ne_aux (n : Nat) : ∀ a b : Ex, Good a → Good b → a.size + b.size ≤ n → exOrder a b ≠ -2 := by
  induction n with
  | zero => intro a b _ _ h; have := a.size_pos; omega
  | succ n ih =>
    intro a b da db h
    by_cases na : a.numberQ = true
    · obtain ⟨x, ha⟩ := da.toFlt na
      by_cases nb : b.numberQ = true
      · obtain ⟨y, hb⟩ := db.toFlt nb
        rw [exOrder_numbers ha hb]
        unfold thenI
        have := numTie_ne a b
        rcases cmpRat_cases y x with h | h | h <;> rw [h.1] <;> simp [this]
      · have nb' : b.numberQ = false := by simpa using nb
        have hb : toFlt b = none := by cases b <;> simp [Ex.numberQ] at nb' <;> rfl
        rw [exOrder_num_right ha hb nb']; decide
    · have na' : a.numberQ = false := by simpa using na
      have ha : toFlt a = none := by cases a <;> simp [Ex.numberQ] at na' <;> rfl
      by_cases nb : b.numberQ = true
      · obtain ⟨y, hb⟩ := db.toFlt nb
        rw [exOrder_num_left hb ha na']; decide
      · have nb' : b.numberQ = false := by simpa using nb
        by_cases sa : symOrExpr a = true
        · by_cases sb : symOrExpr b = true
          · by_cases ht : a.hasHead "System`Times" = true ∨ b.hasHead "System`Times" = true
            · rw [exOrder_times sa sb ht]
              refine timesP_ne ?_
              intro x hx y hy
              apply ih _ _ (da.tParts x hx) (db.tParts y hy)
              have h1 := tParts_size hx
              have h2 := tParts_size hy
              rcases ht with ht | ht
              · have := tParts_size_lt ht hx; omega
              · have := tParts_size_lt ht hy; omega
            · have ta : a.hasHead "System`Times" = false := by by_contra h; exact ht (Or.inl (by simpa using h))
              have tb : b.hasHead "System`Times" = false := by by_contra h; exact ht (Or.inr (by simpa using h))
              by_cases hp : a.hasHead "System`Power" = true ∨ b.hasHead "System`Power" = true
              · rw [exOrder_power sa sb ta tb hp]
                refine plainP_ne ?_
                intro x hx y hy
                apply ih _ _ (da.pParts x hx) (db.pParts y hy)
                have h1 := pParts_size hx
                have h2 := pParts_size hy
                rcases hp with hp | hp
                · have := pParts_size_lt hp hx; omega
                · have := pParts_size_lt hp hy; omega
              · have pa : a.hasHead "System`Power" = false := by by_contra h; exact hp (Or.inl (by simpa using h))
                have pb : b.hasHead "System`Power" = false := by by_contra h; exact hp (Or.inr (by simpa using h))
                cases a <;> simp [symOrExpr] at sa <;> cases b <;> simp [symOrExpr] at sb
                · rw [exOrder_sym]; rename_i x y; have := compareStrings_AS x y; unfold AS at this
                  have h2 := compareStrings_eq_zero x y
                  intro h3
                  have : ∀ a b, compareBytes a b ≠ -2 := by
                    intro a
                    induction a with
                    | nil => intro b; cases b <;> simp [compareBytes]
                    | cons x a ih => intro b; cases b <;> simp [compareBytes]; split_ifs <;> first | decide | exact ih _
                  exact this _ _ h3
                · rw [exOrder_sym_expr tb pb]; decide
                · rw [exOrder_expr_sym ta pa]; decide
                · rw [exOrder_expr ta tb pa pb]
                  refine plainP_ne ?_
                  intro x hx y hy
                  cases da with
                  | expr _ d1 =>
                  cases db with
                  | expr _ d2 =>
                  apply ih _ _ (d1 x hx) (d2 y hy)
                  have h1 := Ex.size_le_sizeL hx
                  have h2 := Ex.size_le_sizeL hy
                  simp [Ex.size] at h; omega
          · cases b <;> simp [symOrExpr, Ex.numberQ] at sb nb'
            rw [exOrder_symOrExpr_str sa]; decide
        · cases a <;> simp [symOrExpr, Ex.numberQ] at sa na'
          by_cases sb : symOrExpr b = true
          · rw [exOrder_str_symOrExpr sb]; decide
          · cases b <;> simp [symOrExpr, Ex.numberQ] at sb nb'
            rw [exOrder_str]
            have : ∀ a b, compareBytes a b ≠ -2 := by
              intro a
              induction a with
              | nil => intro b; cases b <;> simp [compareBytes]
              | cons x a ih => intro b; cases b <;> simp [compareBytes]; split_ifs <;> first | decide | exact ih _
            exact this _ _

/-- The expressions on which the canonical order is a total preorder: complex numbers have real number
parts and no argument of a product ties with the symbol `Times`. -/
inductive Dom : Ex → Prop
  | sym (s) : Dom (.sym s)
  | str (s) : Dom (.str s)
  | int (n) : Dom (.int n)
  | rat (n d) : Dom (.rat n d)
  | flt (v) : Dom (.flt v)
  | cplx (re im) : realNum re = true → Dom (.cplx re im)
  | expr (ps : List Ex) : (∀ p ∈ ps, Dom p) →
      (Ex.hasHead "System`Times" (.expr ps) = true → ∀ p ∈ ps.tail, exOrder (.sym "System`Times") p ≠ 0) →
      Dom (.expr ps)

theorem Dom.toFlt {a : Ex} (h : Dom a) (n : a.numberQ = true) : ∃ x, toFlt a = some x := by
  cases h with
  | cplx re im h => cases re <;> simp [realNum] at h <;> simp [Expreduce.toFlt]
  | _ => simp [Ex.numberQ] at n <;> simp [Expreduce.toFlt]

theorem Dom.tParts {a : Ex} (h : Dom a) : ∀ x ∈ tParts a, Dom x := by
  intro x hx
  cases h with
  | expr ps h1 h2 =>
    simp only [Expreduce.tParts] at hx
    split at hx
    · exact h1 x hx
    · simp at hx; rcases hx with rfl | rfl | rfl
      · exact .sym _
      · exact .int _
      · exact .expr _ h1 h2
  | cplx re im h =>
    simp [Expreduce.tParts] at hx; rcases hx with rfl | rfl | rfl
    · exact .sym _
    · exact .int _
    · exact .cplx _ _ h
  | _ => simp [Expreduce.tParts] at hx; rcases hx with rfl | rfl | rfl <;> constructor

theorem Dom.pParts {a : Ex} (h : Dom a) : ∀ x ∈ pParts a, Dom x := by
  intro x hx
  cases h with
  | expr ps h1 h2 =>
    simp only [Expreduce.pParts] at hx
    split at hx
    · exact h1 x hx
    · simp at hx; rcases hx with rfl | rfl | rfl
      · exact .sym _
      · exact .expr _ h1 h2
      · exact .int _
  | cplx re im h =>
    simp [Expreduce.pParts] at hx; rcases hx with rfl | rfl | rfl
    · exact .sym _
    · exact .cplx _ _ h
    · exact .int _
  | _ => simp [Expreduce.pParts] at hx; rcases hx with rfl | rfl | rfl <;> constructor

theorem Dom.good {a : Ex} (h : Dom a) : Good a := by
  induction h with
  | cplx re im h => exact .cplx re im h
  | expr ps _ _ ih => exact .expr ps ih
  | _ => constructor

/-- On the domain the two directions are exact opposites with values -1, 0, 1. -/
theorem exOrder_opp {a b : Ex} (da : Dom a) (db : Dom b) :
    (exOrder a b = -1 ∨ exOrder a b = 0 ∨ exOrder a b = 1) ∧ exOrder b a = - exOrder a b := by
  have h := exOrder_AS a b
  have := exOrder_ne_aux _ a b da.good db.good le_rfl
  unfold AS at h; omega

/-! ### list comparisons -/

theorem lexP_Tri {f : Ex → Ex → Int} {as bs cs : List Ex}
    (h : ∀ a ∈ as, ∀ b ∈ bs, ∀ c ∈ cs, Tri (f a b) (f b c) (f a c))
    (h1 : as.length = bs.length) (h2 : bs.length = cs.length) :
    Tri (lexP f as bs) (lexP f bs cs) (lexP f as cs) := by
  induction as generalizing bs cs with
  | nil =>
    have : bs = [] := by simpa using h1.symm
    subst this
    have : cs = [] := by simpa using h2.symm
    subst this
    exact Tri.zero
  | cons a as ih =>
    cases bs with
    | nil => simp at h1
    | cons b bs =>
      cases cs with
      | nil => simp at h2
      | cons c cs =>
        exact Tri.thenI (h a (by simp) b (by simp) c (by simp)) (fun _ _ _ =>
          ih (fun a ha b hb c hc => h a (by simp [ha]) b (by simp [hb]) c (by simp [hc]))
            (by simpa using h1) (by simpa using h2))

theorem lenCmp_Tri (as bs cs : List Ex) : Tri (lenCmp as bs) (lenCmp bs cs) (lenCmp as cs) := by
  unfold Tri lenCmp; split_ifs <;> omega

theorem plainP_eq (f : Ex → Ex → Int) (as bs : List Ex) :
    plainP f as bs = thenI (lenCmp as bs) (lexP f as bs) := by
  unfold plainP thenI lenCmp; split_ifs <;> first | rfl | omega

theorem lenCmp_zero {as bs : List Ex} (h : lenCmp as bs = 0) : as.length = bs.length := by
  unfold lenCmp at h; split_ifs at h <;> omega

theorem plainP_Tri {f : Ex → Ex → Int} {as bs cs : List Ex}
    (h : ∀ a ∈ as, ∀ b ∈ bs, ∀ c ∈ cs, Tri (f a b) (f b c) (f a c)) :
    Tri (plainP f as bs) (plainP f bs cs) (plainP f as cs) := by
  rw [plainP_eq, plainP_eq, plainP_eq]
  exact Tri.thenI (lenCmp_Tri _ _ _) (fun h1 h2 _ => lexP_Tri h (lenCmp_zero h1) (lenCmp_zero h2))

/-! Products: lexicographic comparison with an explicit terminator (`none`) just below the symbol `Times`. -/

/-- comparison against the terminator -/
def term (f : Ex → Ex → Int) (T : Ex) (x : Ex) : Int := if f T x = 0 then 1 else f T x

/-- lexicographic comparison of terminated lists -/
def lexT (f : Ex → Ex → Int) (T : Ex) : List Ex → List Ex → Int
  | [], [] => 0
  | [], b :: _ => term f T b
  | a :: _, [] => - term f T a
  | a :: as, b :: bs => thenI (skipNum f a b) (lexT f T as bs)

end Expreduce
