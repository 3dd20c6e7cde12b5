import Verif.Proofs.Order3

/-! Transitivity of the canonical order: products and the main induction. -/

namespace Expreduce

local notation "T" => Ex.sym "System`Times"

theorem dom_T : Dom T := .sym _

/-- number / string / symbol-or-expression -/
def rank : Ex → Nat
  | .str _ => 1
  | .sym _ | .expr _ => 2
  | _ => 0

theorem rank_number {a : Ex} : a.numberQ = true ↔ rank a = 0 := by cases a <;> simp [Ex.numberQ, rank]
theorem rank_symOrExpr {a : Ex} : symOrExpr a = true ↔ rank a = 2 := by cases a <;> simp [symOrExpr, rank]
theorem rank_le (a : Ex) : rank a ≤ 2 := by cases a <;> simp [rank]

theorem exOrder_rank {a b : Ex} (da : Dom a) (db : Dom b) (h : rank a < rank b) :
    exOrder a b = 1 ∧ exOrder b a = -1 := by
  have hb2 := rank_le b
  by_cases na : rank a = 0
  · obtain ⟨x, ha⟩ := da.toFlt (rank_number.2 na)
    have nb : b.numberQ = false := by
      by_contra hc
      have := rank_number.1 (by simpa using hc); omega
    have hb : toFlt b = none := by cases b <;> simp [Ex.numberQ] at nb <;> rfl
    exact ⟨exOrder_num_right ha hb nb, exOrder_num_left ha hb nb⟩
  · have sb : symOrExpr b = true := rank_symOrExpr.2 (by omega)
    have ra : rank a = 1 := by omega
    cases a <;> simp [rank] at ra
    exact ⟨exOrder_str_symOrExpr sb, exOrder_symOrExpr_str sb⟩

theorem exOrder_zero_rank {a b : Ex} (da : Dom a) (db : Dom b) (h : exOrder a b = 0) : rank a = rank b := by
  rcases lt_trichotomy (rank a) (rank b) with h1 | h1 | h1
  · have := (exOrder_rank da db h1).1; omega
  · exact h1
  · have := (exOrder_rank db da h1).2; omega

theorem skipNum_T_left (x : Ex) : skipNum exOrder T x = exOrder T x := by simp [skipNum, Ex.numberQ]
theorem skipNum_T_right (x : Ex) : skipNum exOrder x T = exOrder x T := by simp [skipNum, Ex.numberQ]

theorem exOrder_TT : exOrder T T = 0 := by rw [exOrder_sym, compareStrings_eq_zero]

theorem exOrder_T_one : exOrder T (.int 1) = -1 := (exOrder_rank (.int 1) dom_T (by simp [rank])).2

theorem term_ne (x : Ex) : term exOrder T x ≠ 0 := by unfold term; split_ifs <;> omega

theorem skipNum_Tri {x y z : Ex} (dx : Dom x) (dy : Dom y) (dz : Dom z)
    (h : Tri (exOrder x y) (exOrder y z) (exOrder x z)) :
    Tri (skipNum exOrder x y) (skipNum exOrder y z) (skipNum exOrder x z) := by
  have key : ∀ a b : Ex, Dom a → Dom b → a.numberQ = true → b.numberQ = false →
      exOrder a b = 1 ∧ exOrder b a = -1 := by
    intro a b da db na nb
    refine exOrder_rank da db ?_
    have h1 := rank_number.1 na
    have h2 : rank b ≠ 0 := fun h => by rw [rank_number.2 h] at nb; exact absurd nb (by decide)
    omega
  unfold skipNum
  cases nx : x.numberQ <;> cases ny : y.numberQ <;> cases nz : z.numberQ <;> simp
  · exact h
  · exact h
  · exact h
  · have := key y x dy dx ny nx; have := key z x dz dx nz nx; unfold Tri; omega
  · exact h
  · have := key x y dx dy nx ny; have := key z y dz dy nz ny; unfold Tri; omega
  · have := key x z dx dz nx nz; have := key y z dy dz ny nz; unfold Tri; omega
  · unfold Tri; omega

theorem lexT_Tri {xs ys zs : List Ex}
    (dx : ∀ x ∈ xs, Dom x) (dy : ∀ y ∈ ys, Dom y) (dz : ∀ z ∈ zs, Dom z)
    (h : ∀ x ∈ T :: xs, ∀ y ∈ T :: ys, ∀ z ∈ T :: zs, Tri (exOrder x y) (exOrder y z) (exOrder x z)) :
    Tri (lexT exOrder T xs ys) (lexT exOrder T ys zs) (lexT exOrder T xs zs) := by
  induction xs generalizing ys zs with
  | nil =>
    cases ys with
    | nil =>
      cases zs with
      | nil => simp only [lexT]; exact Tri.zero
      | cons z zs => simp only [lexT]; have := term_ne z; unfold Tri; omega
    | cons y ys =>
      cases zs with
      | nil => simp only [lexT]; have := term_ne y; unfold Tri; omega
      | cons z zs =>
        simp only [lexT]
        have h1 := skipNum_Tri dom_T (dy y (by simp)) (dz z (by simp)) (h T (by simp) y (by simp) z (by simp))
        rw [skipNum_T_left, skipNum_T_left] at h1
        generalize lexT exOrder T ys zs = w
        unfold thenI term Tri at *
        split_ifs <;> omega
  | cons x xs ih =>
    cases ys with
    | nil =>
      cases zs with
      | nil => simp only [lexT]; have := term_ne x; unfold Tri; omega
      | cons z zs =>
        simp only [lexT]
        have h1 := skipNum_Tri (dx x (by simp)) dom_T (dz z (by simp)) (h x (by simp) T (by simp) z (by simp))
        rw [skipNum_T_left, skipNum_T_right, (exOrder_opp dom_T (dx x (by simp))).2] at h1
        generalize lexT exOrder T xs zs = w
        unfold thenI term Tri at *
        split_ifs <;> omega
    | cons y ys =>
      cases zs with
      | nil =>
        simp only [lexT]
        have h1 := skipNum_Tri (dx x (by simp)) (dy y (by simp)) dom_T (h x (by simp) y (by simp) T (by simp))
        rw [skipNum_T_right, skipNum_T_right, (exOrder_opp dom_T (dx x (by simp))).2,
          (exOrder_opp dom_T (dy y (by simp))).2] at h1
        generalize lexT exOrder T xs ys = w
        unfold thenI term Tri at *
        split_ifs <;> omega
      | cons z zs =>
        simp only [lexT]
        refine Tri.thenI (skipNum_Tri (dx x (by simp)) (dy y (by simp)) (dz z (by simp))
          (h x (by simp) y (by simp) z (by simp))) (fun _ _ _ => ih ?_ ?_ ?_ ?_)
        · intro a ha; exact dx a (by simp [ha])
        · intro a ha; exact dy a (by simp [ha])
        · intro a ha; exact dz a (by simp [ha])
        · intro a ha b hb c hc
          refine h a ?_ b ?_ c ?_
          · simp only [List.mem_cons] at ha ⊢; tauto
          · simp only [List.mem_cons] at hb ⊢; tauto
          · simp only [List.mem_cons] at hc ⊢; tauto

/-- ties have the same length and the same pattern of numbers -/
theorem lexT_zero {xs ys : List Ex} (dx : ∀ x ∈ xs, Dom x) (dy : ∀ y ∈ ys, Dom y)
    (h : lexT exOrder T xs ys = 0) : xs.map Ex.numberQ = ys.map Ex.numberQ := by
  induction xs generalizing ys with
  | nil =>
    cases ys with
    | nil => rfl
    | cons y ys => simp only [lexT] at h; exact absurd h (term_ne y)
  | cons x xs ih =>
    cases ys with
    | nil => simp only [lexT] at h; have := term_ne x; omega
    | cons y ys =>
      simp only [lexT] at h
      have h1 : skipNum exOrder x y = 0 ∧ lexT exOrder T xs ys = 0 := by
        unfold thenI at h; split_ifs at h
        · contradiction
        · constructor <;> omega
      simp only [List.map_cons]
      rw [ih (fun a ha => dx a (by simp [ha])) (fun a ha => dy a (by simp [ha])) h1.2]
      congr 1
      have h2 := h1.1
      unfold skipNum at h2
      split_ifs at h2 with h3
      · simp only [Bool.and_eq_true] at h3; rw [h3.1, h3.2]
      · have := exOrder_zero_rank (dx x (by simp)) (dy y (by simp)) h2
        have e1 := rank_number (a := x); have e2 := rank_number (a := y)
        rw [this] at e1
        exact Bool.eq_iff_iff.2 (e1.trans e2.symm)

theorem onlyNum_Tri {as bs cs : List Ex}
    (h : ∀ a ∈ as, ∀ b ∈ bs, ∀ c ∈ cs, Tri (exOrder a b) (exOrder b c) (exOrder a c))
    (h1 : as.map Ex.numberQ = bs.map Ex.numberQ) (h2 : bs.map Ex.numberQ = cs.map Ex.numberQ) :
    Tri (lexP (onlyNum exOrder) as bs) (lexP (onlyNum exOrder) bs cs) (lexP (onlyNum exOrder) as cs) := by
  induction as generalizing bs cs with
  | nil =>
    have : bs = [] := by simpa using h1.symm
    subst this
    have : cs = [] := by simpa using h2.symm
    subst this
    exact Tri.zero
  | cons a as ih =>
    cases bs with
    | nil => simp at h1
    | cons b bs =>
      cases cs with
      | nil => simp at h2
      | cons c cs =>
        simp only [List.map_cons, List.cons.injEq] at h1 h2
        refine Tri.thenI ?_ (fun _ _ _ =>
          ih (fun a ha b hb c hc => h a (by simp [ha]) b (by simp [hb]) c (by simp [hc])) h1.2 h2.2)
        unfold onlyNum
        rw [h1.1, h2.1]
        cases c.numberQ <;> simp
        · exact Tri.zero
        · exact h a (by simp) b (by simp) c (by simp)

/-! relating `timesP` to the terminated comparison -/

theorem lexP_lexT_nt {xs ys : List Ex} (dx : ∀ x ∈ xs, Dom x) (dy : ∀ y ∈ ys, Dom y)
    (nx : ∀ x ∈ xs, exOrder T x ≠ 0) (ny : ∀ y ∈ ys, exOrder T y ≠ 0) :
    lexP (skipNum exOrder) (xs ++ [T]) (ys ++ [T]) = lexT exOrder T xs ys := by
  induction xs generalizing ys with
  | nil =>
    cases ys with
    | nil => simp [lexP, lexT, skipNum_T_left, exOrder_TT]
    | cons y ys =>
      have := ny y (by simp)
      simp [lexP, lexT, skipNum_T_left, term, this]
  | cons x xs ih =>
    cases ys with
    | nil =>
      have := nx x (by simp)
      have h2 := (exOrder_opp dom_T (dx x (by simp))).2
      simp [lexP, lexT, skipNum_T_right, term, this, h2]
    | cons y ys =>
      simp only [List.cons_append, lexP, lexT, thenI]
      rw [ih (fun a ha => dx a (by simp [ha])) (fun a ha => dy a (by simp [ha]))
        (fun a ha => nx a (by simp [ha])) (fun a ha => ny a (by simp [ha]))]

/-- reversed arguments of the normalised product: no tie with the terminator, or a wrapped operand -/
def NT (xs : List Ex) : Prop := (∀ x ∈ xs, exOrder T x ≠ 0) ∨ ∃ a, xs = [a, .int 1]

theorem NT.tail {x : Ex} {xs : List Ex} (h : NT (x :: xs)) : ∀ y ∈ xs, exOrder T y ≠ 0 := by
  intro y hy
  rcases h with h | ⟨a, h⟩
  · exact h y (by simp [hy])
  · simp at h; obtain ⟨_, rfl⟩ := h; simp at hy; subst hy; rw [exOrder_T_one]; decide

theorem times_lexT_aux {xs ys : List Ex} (dx : ∀ x ∈ xs, Dom x) (dy : ∀ y ∈ ys, Dom y) (nx : NT xs) (ny : NT ys) :
    timesP exOrder (T :: xs.reverse) (T :: ys.reverse) =
      thenI (lexT exOrder T xs ys) (lexP (onlyNum exOrder) (T :: xs.reverse) (T :: ys.reverse)) := by
  have hlen : lexT exOrder T xs ys = 0 → lenCmp (T :: xs.reverse) (T :: ys.reverse) = 0 := by
    intro h
    have := congrArg List.length (lexT_zero dx dy h)
    simp at this
    simp [lenCmp, this]
  have fin : lexP (skipNum exOrder) (xs ++ [T]) (ys ++ [T]) = lexT exOrder T xs ys →
      timesP exOrder (T :: xs.reverse) (T :: ys.reverse) =
      thenI (lexT exOrder T xs ys) (lexP (onlyNum exOrder) (T :: xs.reverse) (T :: ys.reverse)) := by
    intro h
    unfold timesP
    simp only [List.reverse_cons, List.reverse_reverse, h]
    by_cases h0 : lexT exOrder T xs ys = 0
    · rw [hlen h0]; unfold thenI; split_ifs <;> omega
    · unfold thenI; simp [h0]
  cases xs with
  | nil =>
    cases ys with
    | nil => exact fin (lexP_lexT_nt dx dy (by simp) (by simp))
    | cons y ys =>
      by_cases hy : exOrder T y = 0
      · rcases ny with ny | ⟨a, ny⟩
        · exact absurd hy (ny y (by simp))
        · simp at ny; obtain ⟨rfl, rfl⟩ := ny
          simp [timesP, lexP, skipNum_T_left, hy, lexT, term, thenI, onlyNum, Ex.numberQ, lenCmp]
      · exact fin (lexP_lexT_nt dx dy (by simp) (by
          intro z hz
          rcases List.mem_cons.1 hz with rfl | hz
          · exact hy
          · exact ny.tail z hz))
  | cons x xs =>
    cases ys with
    | nil =>
      by_cases hx : exOrder T x = 0
      · rcases nx with nx | ⟨a, nx⟩
        · exact absurd hx (nx x (by simp))
        · simp at nx; obtain ⟨rfl, rfl⟩ := nx
          have h2 := (exOrder_opp dom_T (dx x (by simp))).2
          simp [timesP, lexP, skipNum_T_right, h2, hx, lexT, term, thenI, onlyNum, Ex.numberQ, lenCmp]
      · exact fin (lexP_lexT_nt dx dy (by
          intro z hz
          rcases List.mem_cons.1 hz with rfl | hz
          · exact hx
          · exact nx.tail z hz) (by simp))
    | cons y ys =>
      apply fin
      simp only [List.cons_append, lexP, lexT, thenI]
      rw [lexP_lexT_nt (fun a ha => dx a (by simp [ha])) (fun a ha => dy a (by simp [ha])) nx.tail ny.tail]

/-- shape of the normalised product -/
theorem tParts_shape {a : Ex} (da : Dom a) : ∃ xs, tParts a = T :: xs.reverse ∧ (∀ x ∈ xs, Dom x) ∧ NT xs := by
  have hd := da.tParts
  by_cases h : a.hasHead "System`Times" = true
  · cases da with
    | expr ps h1 h2 =>
      have h3 := h2 h
      cases ps with
      | nil => simp [Ex.hasHead] at h
      | cons p ps =>
        have hp : p = T := by
          cases p <;> simp [Ex.hasHead] at h
          rw [h]
        subst hp
        refine ⟨ps.reverse, by simp [tParts, h], ?_, Or.inl ?_⟩
        · intro x hx; exact h1 x (by simp at hx; simp [hx])
        · intro x hx; exact h3 x (by simpa using hx)
    | _ => simp [Ex.hasHead] at h
  · have e : tParts a = [T, .int 1, a] := by
      cases a <;> simp [tParts, h]
    refine ⟨[a, .int 1], by simp [e], ?_, Or.inr ⟨a, rfl⟩⟩
    intro x hx
    simp at hx; rcases hx with rfl | rfl
    · exact da
    · exact .int 1

/-- Wrapping both operands as products does not change their comparison. -/
theorem exOrder_wrapTimes {a b : Ex} (sa : symOrExpr a = true) (sb : symOrExpr b = true) :
    timesP exOrder [T, .int 1, a] [T, .int 1, b] = exOrder a b := by
  have na : a.numberQ = false := by cases a <;> simp [symOrExpr] at sa <;> rfl
  have nb : b.numberQ = false := by cases b <;> simp [symOrExpr] at sb <;> rfl
  have h1 : exOrder (.int 1) (.int 1) = 0 := by rw [exOrder_int]; rfl
  by_cases h : exOrder a b = 0
  · simp [timesP, lexP, skipNum, onlyNum, na, nb, h, thenI, lenCmp, Ex.numberQ, h1, exOrder_TT]
  · simp [timesP, lexP, skipNum, na, h, thenI]

theorem exOrder_wrapPower {a b : Ex} :
    plainP exOrder [.sym "System`Power", a, .int 1] [.sym "System`Power", b, .int 1] = exOrder a b := by
  have h1 : exOrder (.int 1) (.int 1) = 0 := by rw [exOrder_int]; rfl
  have h2 : exOrder (.sym "System`Power") (.sym "System`Power") = 0 := by rw [exOrder_sym, compareStrings_eq_zero]
  by_cases h : exOrder a b = 0
  · simp [plainP, lexP, h, h1, h2]
  · simp [plainP, lexP, h, h2]

theorem tParts_of_not {a : Ex} (h : a.hasHead "System`Times" = false) : tParts a = [T, .int 1, a] := by
  cases a <;> simp [tParts, h]
theorem pParts_of_not {a : Ex} (h : a.hasHead "System`Power" = false) :
    pParts a = [.sym "System`Power", a, .int 1] := by
  cases a <;> simp [pParts, h]

/-- Uniform form: every comparison of symbols/expressions is the comparison of the normalised products. -/
theorem exOrder_timesU {a b : Ex} (sa : symOrExpr a = true) (sb : symOrExpr b = true) :
    exOrder a b = timesP exOrder (tParts a) (tParts b) := by
  by_cases ht : a.hasHead "System`Times" = true ∨ b.hasHead "System`Times" = true
  · exact exOrder_times sa sb ht
  · have ta : a.hasHead "System`Times" = false := by by_contra h; exact ht (Or.inl (by simpa using h))
    have tb : b.hasHead "System`Times" = false := by by_contra h; exact ht (Or.inr (by simpa using h))
    rw [tParts_of_not ta, tParts_of_not tb, exOrder_wrapTimes sa sb]

theorem exOrder_powerU {a b : Ex} (sa : symOrExpr a = true) (sb : symOrExpr b = true)
    (ta : a.hasHead "System`Times" = false) (tb : b.hasHead "System`Times" = false) :
    exOrder a b = plainP exOrder (pParts a) (pParts b) := by
  by_cases ht : a.hasHead "System`Power" = true ∨ b.hasHead "System`Power" = true
  · exact exOrder_power sa sb ta tb ht
  · have pa : a.hasHead "System`Power" = false := by by_contra h; exact ht (Or.inl (by simpa using h))
    have pb : b.hasHead "System`Power" = false := by by_contra h; exact ht (Or.inr (by simpa using h))
    rw [pParts_of_not pa, pParts_of_not pb, exOrder_wrapPower]

theorem times_Tri {a b c : Ex} (da : Dom a) (db : Dom b) (dc : Dom c)
    (h : ∀ x ∈ tParts a, ∀ y ∈ tParts b, ∀ z ∈ tParts c, Tri (exOrder x y) (exOrder y z) (exOrder x z)) :
    Tri (timesP exOrder (tParts a) (tParts b)) (timesP exOrder (tParts b) (tParts c))
      (timesP exOrder (tParts a) (tParts c)) := by
  obtain ⟨xs, ex, dx, nx⟩ := tParts_shape da
  obtain ⟨ys, ey, dy, ny⟩ := tParts_shape db
  obtain ⟨zs, ez, dz, nz⟩ := tParts_shape dc
  rw [ex, ey, ez] at h ⊢
  rw [times_lexT_aux dx dy nx ny, times_lexT_aux dy dz ny nz, times_lexT_aux dx dz nx nz]
  refine Tri.thenI (lexT_Tri dx dy dz ?_) ?_
  · intro x hx y hy z hz
    refine h x ?_ y ?_ z ?_
    · simpa using hx
    · simpa using hy
    · simpa using hz
  · intro h1 h2 _
    have e1 := lexT_zero dx dy h1
    have e2 := lexT_zero dy dz h2
    exact onlyNum_Tri h (by simp [Ex.numberQ, List.map_reverse, e1]) (by simp [Ex.numberQ, List.map_reverse, e2])

theorem exOrder_Tri_aux (n : Nat) : ∀ a b c : Ex, Dom a → Dom b → Dom c → a.size + b.size + c.size ≤ n →
    Tri (exOrder a b) (exOrder b c) (exOrder a c) := by
  induction n with
  | zero => intro a b c _ _ _ h; have := a.size_pos; omega
  | succ n ih =>
    intro a b c da db dc h
    by_cases hr : rank a = rank b ∧ rank b = rank c
    swap
    · have kab := fun h => exOrder_rank da db h
      have kba := fun h => exOrder_rank db da h
      have kbc := fun h => exOrder_rank db dc h
      have kcb := fun h => exOrder_rank dc db h
      have kac := fun h => exOrder_rank da dc h
      have kca := fun h => exOrder_rank dc da h
      rcases lt_trichotomy (rank a) (rank b) with h1 | h1 | h1 <;>
        rcases lt_trichotomy (rank b) (rank c) with h2 | h2 | h2 <;>
        rcases lt_trichotomy (rank a) (rank c) with h3 | h3 | h3 <;>
        first
        | (exfalso; omega)
        | (try have := kab h1
           try have := kba h1
           try have := kbc h2
           try have := kcb h2
           try have := kac h3
           try have := kca h3
           unfold Tri; omega)
    · obtain ⟨hab, hbc⟩ := hr
      have r2 := rank_le a
      by_cases r0 : rank a = 0
      · obtain ⟨x, ha⟩ := da.toFlt (rank_number.2 r0)
        obtain ⟨y, hb⟩ := db.toFlt (rank_number.2 (by omega))
        obtain ⟨z, hc⟩ := dc.toFlt (rank_number.2 (by omega))
        exact numbers_Tri ha hb hc
      by_cases r1 : rank a = 1
      · cases a <;> simp [rank] at r1
        cases b <;> simp [rank] at hab
        cases c <;> simp [rank] at hbc
        rw [exOrder_str, exOrder_str, exOrder_str]; exact compareStrings_Tri _ _ _
      have sa : symOrExpr a = true := rank_symOrExpr.2 (by omega)
      have sb : symOrExpr b = true := rank_symOrExpr.2 (by omega)
      have sc : symOrExpr c = true := rank_symOrExpr.2 (by omega)
      by_cases ht : a.hasHead "System`Times" = true ∨ b.hasHead "System`Times" = true ∨ c.hasHead "System`Times" = true
      · rw [exOrder_timesU sa sb, exOrder_timesU sb sc, exOrder_timesU sa sc]
        refine times_Tri da db dc ?_
        intro x hx y hy z hz
        apply ih _ _ _ (da.tParts x hx) (db.tParts y hy) (dc.tParts z hz)
        have h1 := tParts_size hx
        have h2 := tParts_size hy
        have h3 := tParts_size hz
        rcases ht with ht | ht | ht
        · have := tParts_size_lt ht hx; omega
        · have := tParts_size_lt ht hy; omega
        · have := tParts_size_lt ht hz; omega
      · have ta : a.hasHead "System`Times" = false := by
          by_contra h; exact ht (Or.inl (by simpa using h))
        have tb : b.hasHead "System`Times" = false := by
          by_contra h; exact ht (Or.inr (Or.inl (by simpa using h)))
        have tc : c.hasHead "System`Times" = false := by
          by_contra h; exact ht (Or.inr (Or.inr (by simpa using h)))
        by_cases hp : a.hasHead "System`Power" = true ∨ b.hasHead "System`Power" = true ∨ c.hasHead "System`Power" = true
        · rw [exOrder_powerU sa sb ta tb, exOrder_powerU sb sc tb tc, exOrder_powerU sa sc ta tc]
          refine plainP_Tri ?_
          intro x hx y hy z hz
          apply ih _ _ _ (da.pParts x hx) (db.pParts y hy) (dc.pParts z hz)
          have h1 := pParts_size hx
          have h2 := pParts_size hy
          have h3 := pParts_size hz
          rcases hp with ht | ht | ht
          · have := pParts_size_lt ht hx; omega
          · have := pParts_size_lt ht hy; omega
          · have := pParts_size_lt ht hz; omega
        · have pa : a.hasHead "System`Power" = false := by
            by_contra h; exact hp (Or.inl (by simpa using h))
          have pb : b.hasHead "System`Power" = false := by
            by_contra h; exact hp (Or.inr (Or.inl (by simpa using h)))
          have pc : c.hasHead "System`Power" = false := by
            by_contra h; exact hp (Or.inr (Or.inr (by simpa using h)))
          cases a <;> simp [symOrExpr] at sa <;> cases b <;> simp [symOrExpr] at sb <;>
            cases c <;> simp [symOrExpr] at sc
          · rw [exOrder_sym, exOrder_sym, exOrder_sym]; exact compareStrings_Tri _ _ _
          · rw [exOrder_sym_expr tc pc, exOrder_sym_expr tc pc]
            generalize exOrder _ _ = p; unfold Tri; omega
          · rw [exOrder_sym_expr tb pb, exOrder_expr_sym tb pb]
            generalize exOrder _ _ = p; unfold Tri; omega
          · rw [exOrder_sym_expr tb pb, exOrder_sym_expr tc pc]
            generalize exOrder _ _ = p; unfold Tri; omega
          · rw [exOrder_expr_sym ta pa, exOrder_expr_sym ta pa]
            generalize exOrder _ _ = p; unfold Tri; omega
          · rw [exOrder_expr_sym ta pa, exOrder_sym_expr tc pc]
            generalize exOrder _ _ = p; unfold Tri; omega
          · rw [exOrder_expr_sym tb pb, exOrder_expr_sym ta pa]
            generalize exOrder _ _ = p; unfold Tri; omega
          · rw [exOrder_expr ta tb pa pb, exOrder_expr tb tc pb pc, exOrder_expr ta tc pa pc]
            cases da with
            | expr _ d1 _ =>
            cases db with
            | expr _ d2 _ =>
            cases dc with
            | expr _ d3 _ =>
            refine plainP_Tri ?_
            intro x hx y hy z hz
            apply ih _ _ _ (d1 x hx) (d2 y hy) (d3 z hz)
            have h1 := Ex.size_le_sizeL hx
            have h2 := Ex.size_le_sizeL hy
            have h3 := Ex.size_le_sizeL hz
            simp [Ex.size] at h; omega

theorem exOrder_Tri {a b c : Ex} (da : Dom a) (db : Dom b) (dc : Dom c) :
    Tri (exOrder a b) (exOrder b c) (exOrder a c) := exOrder_Tri_aux _ a b c da db dc le_rfl

end Expreduce
