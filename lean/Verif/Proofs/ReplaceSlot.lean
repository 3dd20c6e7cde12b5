import Verif.Proofs.ReplaceSub

/-! Filling the slots of a pure function. -/

namespace Expreduce
open Ex

/-- `Slot[k]`. -/
def slot (k : Int) : Ex := .expr [.sym "System`Slot", .int k]

theorem slotValue_some {args : List Ex} {u v : Ex} (h : slotValue args u = some v) : ∃ k, u = slot k ∧ v ∈ args := by
  unfold slotValue at h
  split at h
  · rename_i s k
    split at h
    · rename_i hh
      exact ⟨k, by rw [hh.1]; rfl, List.mem_of_getElem? h⟩
    · simp at h
  · simp at h

theorem slotValue_slot (args : List Ex) (k : Int) : slotValue args (slot k) = if 1 ≤ k then args[(k - 1).toNat]? else none := by
  simp [slotValue, slot]

/-- What is assumed of the arguments. -/
structure ArgOk (a : Ex) : Prop where
  noSlot : ∀ u ∈ subexprs a, hasHead "System`Slot" u = false
  notSlot : a ≠ .sym "System`Slot"
  notFun : a ≠ .sym "System`Function"

/-- Every `Slot` in the body has a number. -/
def SlotsLiteral (e : Ex) : Prop := ∀ u ∈ subexprs e, hasHead "System`Slot" u = true → ∃ k, u = slot k

theorem hasHead_slot (k : Int) : hasHead "System`Slot" (slot k) = true := by simp [hasHead, slot]

theorem slot_step {done : List Ex} {a : Ex} (hd : ∀ b ∈ done, ArgOk b) : ∀ e : Ex, SlotsLiteral e →
    rewriteOut (hasHead "System`Function") (onlyAt (slot (done.length + 1)) a) (rewriteOut (hasHead "System`Function") (slotValue done) e) =
      rewriteOut (hasHead "System`Function") (slotValue (done ++ [a])) e := by
  intro e
  have hatom : ∀ e : Ex, isAtom e = true →
      rewriteOut (hasHead "System`Function") (onlyAt (slot (done.length + 1)) a) (rewriteOut (hasHead "System`Function") (slotValue done) e) =
      rewriteOut (hasHead "System`Function") (slotValue (done ++ [a])) e := by
    intro e he
    have h1 : ∀ l, slotValue l e = none := by intro l; cases e <;> simp_all [isAtom, slotValue]
    rw [rewriteOut_atom he, rewriteOut_atom he, h1, h1]
    simp only [Option.getD_none]
    rw [rewriteOut_atom he]
    have : onlyAt (slot (done.length + 1)) a e = none := by
      unfold onlyAt; rw [if_neg]; rintro rfl; simp [slot, isAtom] at he
    rw [this]; rfl
  induction e using Ex.ind with
  | hexpr ps ih =>
    intro hl
    by_cases hs : hasHead "System`Function" (.expr ps) = true
    · have e1 : ∀ hit, rewriteOut (hasHead "System`Function") hit (.expr ps) = .expr ps := by
        intro hit; rw [rewriteOut, if_pos hs]
      rw [e1, e1, e1]
    · have hnode : ∀ hit, rewriteOut (hasHead "System`Function") hit (.expr ps) = match hit (.expr ps) with
          | some r => r
          | none => .expr (ps.map (rewriteOut (hasHead "System`Function") hit)) := by
        intro hit; rw [rewriteOut, if_neg hs]
        cases hit (.expr ps) <;> simp [rewriteOutL_eq]
      by_cases hslot : hasHead "System`Slot" (.expr ps) = true
      · obtain ⟨k, hk⟩ := hl _ (subexprs_self _) hslot
        rw [hk] at hnode hs ⊢
        have hmap : ∀ hit, hit (.sym "System`Slot") = none → hit (.int k) = none → ps = [.sym "System`Slot", .int k] →
            Ex.expr (ps.map (rewriteOut (hasHead "System`Function") hit)) = slot k := by
          intro hit h1 h2 h3
          rw [h3]
          simp only [List.map_cons, List.map_nil]
          rw [rewriteOut_atom rfl, rewriteOut_atom rfl, h1, h2]; rfl
        have hps : ps = [.sym "System`Slot", .int k] := by simpa [slot] using hk
        by_cases hin : 1 ≤ k ∧ k ≤ done.length
        · have h1 : slotValue done (slot k) = some (done[(k - 1).toNat]'(by omega)) := by
            rw [slotValue_slot, if_pos hin.1, List.getElem?_eq_getElem]
          have h2 : slotValue (done ++ [a]) (slot k) = some (done[(k - 1).toNat]'(by omega)) := by
            rw [slotValue_slot, if_pos hin.1, List.getElem?_append_left (by omega), List.getElem?_eq_getElem]
          have e1 := hnode (slotValue done)
          have e2 := hnode (slotValue (done ++ [a]))
          rw [h1] at e1; rw [h2] at e2
          rw [e1, e2]
          refine rewriteOut_none _ ?_
          intro u hu
          unfold onlyAt
          rw [if_neg]
          rintro rfl
          have := (hd _ (List.getElem_mem _)).noSlot _ hu
          rw [hasHead_slot] at this; simp at this
        · have h1 : slotValue done (slot k) = none := by
            rw [slotValue_slot]
            split
            · rw [List.getElem?_eq_none]; omega
            · rfl
          have e1 : rewriteOut (hasHead "System`Function") (slotValue done) (slot k) = slot k := by
            rw [hnode, h1]; exact hmap _ rfl rfl hps
          rw [e1]
          have e2 := hnode (onlyAt (slot (done.length + 1)) a)
          have e3 := hnode (slotValue (done ++ [a]))
          rw [e2, e3]
          by_cases hk1 : k = done.length + 1
          · subst hk1
            have h2 : slotValue (done ++ [a]) (slot (done.length + 1)) = some a := by
              rw [slotValue_slot, if_pos (by omega)]
              have : ((done.length : Int) + 1 - 1).toNat = done.length := by omega
              rw [this]; simp
            rw [h2]
            simp [onlyAt]
          · have h2 : slotValue (done ++ [a]) (slot k) = none := by
              rw [slotValue_slot]
              split
              · rw [List.getElem?_eq_none]; simp; omega
              · rfl
            have h3 : onlyAt (slot (done.length + 1)) a (slot k) = none := by
              unfold onlyAt; rw [if_neg]; intro h; simp only [slot, Ex.expr.injEq, List.cons.injEq, Ex.int.injEq, and_true, true_and] at h; omega
            rw [h2, h3]
            simp only
            exact (hmap (onlyAt (slot (done.length + 1)) a) (by simp [onlyAt, slot]) (by simp [onlyAt, slot]) hps).trans
              (hmap (slotValue (done ++ [a])) rfl rfl hps).symm
      · have hnone : ∀ l, slotValue l (.expr ps) = none := by
          intro l
          by_contra hc
          obtain ⟨v, hv⟩ := Option.ne_none_iff_exists'.1 hc
          obtain ⟨k, hk, _⟩ := slotValue_some hv
          rw [hk, hasHead_slot] at hslot
          simp at hslot
        have hslotne : ∀ k, Ex.expr ps ≠ slot k := by rintro k hk; rw [hk, hasHead_slot] at hslot; simp at hslot
        have e1 := hnode (slotValue done)
        rw [hnone] at e1
        simp only at e1
        have e2 := hnode (slotValue (done ++ [a]))
        rw [hnone] at e2
        simp only at e2
        rw [e1, e2]
        -- the head of the rewritten node
        have hhead : ∀ t : String, t = "System`Slot" ∨ t = "System`Function" → hasHead t (.expr ps) = false →
            hasHead t (.expr (ps.map (rewriteOut (hasHead "System`Function") (slotValue done)))) = false := by
          intro t ht hps
          cases ps with
          | nil => rfl
          | cons p ps =>
            simp only [List.map_cons]
            by_contra hc
            simp only [Bool.not_eq_false] at hc
            have hp : rewriteOut (hasHead "System`Function") (slotValue done) p = .sym t := by
              cases hr : rewriteOut (hasHead "System`Function") (slotValue done) p <;> rw [hr] at hc <;> simp [hasHead] at hc
              rw [hc]
            by_cases hpa : isAtom p = true
            · have : slotValue done p = none := by cases p <;> simp_all [isAtom, slotValue]
              rw [rewriteOut_atom hpa, this] at hp
              simp only [Option.getD_none] at hp
              rw [hp] at hps
              simp [hasHead] at hps
            · cases p with
              | expr qs =>
                rw [rewriteOut] at hp
                split at hp
                · simp at hp
                · split at hp
                  · rename_i r hr
                    obtain ⟨_, _, hmem⟩ := slotValue_some hr
                    subst hp
                    rcases ht with rfl | rfl
                    · exact (hd _ hmem).notSlot rfl
                    · exact (hd _ hmem).notFun rfl
                  · simp at hp
              | _ => simp [isAtom] at hpa
        have hF := hhead _ (Or.inr rfl) (by simpa using hs)
        have hS := hhead _ (Or.inl rfl) (by simpa using hslot)
        rw [rewriteOut, if_neg (by simp [hF])]
        have hon : onlyAt (slot (done.length + 1)) a (.expr (ps.map (rewriteOut (hasHead "System`Function") (slotValue done)))) = none := by
          unfold onlyAt; rw [if_neg]; intro h; rw [h, hasHead_slot] at hS; simp at hS
        rw [hon]
        simp only [rewriteOutL_eq, List.map_map, Ex.expr.injEq]
        apply List.map_congr_left
        intro p hp
        exact ih p hp (fun u hu => hl u (mem_subexprs_part hp hu))
  | _ => intro _; exact hatom _ rfl

theorem slotValue_nil (u : Ex) : slotValue [] u = none := by
  unfold slotValue
  split
  · split <;> simp
  · rfl

theorem wellFormed_rewriteOut {skip hit} (h : ∀ u v, hit u = some v → wellFormed v = true) : ∀ e : Ex, wellFormed e = true →
    wellFormed (rewriteOut skip hit e) = true := by
  intro e
  have hatom : ∀ e : Ex, isAtom e = true → wellFormed e = true → wellFormed (rewriteOut skip hit e) = true := by
    intro e he hw
    rw [rewriteOut_atom he]
    cases hh : hit e with
    | none => exact hw
    | some v => exact h _ _ hh
  induction e using Ex.ind with
  | hexpr ps ih =>
    intro hw
    rw [rewriteOut]
    split
    · exact hw
    · split
      · rename_i r hr; exact h _ _ hr
      · rw [wellFormed_expr_iff] at hw
        rw [rewriteOutL_eq, wellFormed_expr_iff]
        refine ⟨by simpa using hw.1, ?_⟩
        intro q hq
        obtain ⟨p, hp, rfl⟩ := List.mem_map.1 hq
        exact ih p hp (hw.2 p hp)
  | _ => intro hw; exact hatom _ rfl hw

end Expreduce
