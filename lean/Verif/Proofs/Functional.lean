import Verif.Model.Functional
import Verif.Spec.Functional
import Verif.Props.Lists
import Mathlib.Tactic.SplitIfs

/-! Lemmas about the level walkers. -/

namespace Expreduce
open Ex

/-- `e` with the positions below `path` treated. -/
def below (sel : List Nat → Ex → Bool) (F : List Nat → Ex → Ex) (path : List Nat) (e : Ex) : Ex :=
  match e with
  | .expr ps => .expr (mapAtParts sel F path ps)
  | e => e

theorem mapAt_eq (sel F path) (e : Ex) : mapAt sel F path e = if sel path e then F path (below sel F path e) else below sel F path e := by
  cases e <;> simp [mapAt, below]

mutual
/-- The sum of `c` over the selected positions strictly below. -/
def sumBelow (sel : List Nat → Ex → Bool) (c : List Nat → Ex → Int) (path : List Nat) (e : Ex) : Int :=
  match e with
  | .expr ps => sumParts sel c path ps
  | _ => 0
/-- the head is not visited -/
def sumParts (sel : List Nat → Ex → Bool) (c : List Nat → Ex → Int) (path : List Nat) : List Ex → Int
  | [] => 0
  | _ :: as => sumArgs sel c path 1 as
/-- the arguments -/
def sumArgs (sel : List Nat → Ex → Bool) (c : List Nat → Ex → Int) (path : List Nat) (i : Nat) : List Ex → Int
  | [] => 0
  | a :: as => sumBelow sel c (path ++ [i]) a + (if sel (path ++ [i]) a then c (path ++ [i]) a else 0) + sumArgs sel c path (i + 1) as
end

mutual
theorem below_none {sel F c} {path : List Nat} : ∀ (e : Ex), (∀ p y, path.length < p.length → sel p y = false) →
    below sel F path e = e ∧ sumBelow sel c path e = 0
  | .expr ps, h => by
    have := mapAtParts_none (F := F) (c := c) ps h
    simp [below, sumBelow, this]
  | .sym _, _ | .str _, _ | .int _, _ | .rat _ _, _ | .flt _, _ | .cplx _ _, _ => by simp [below, sumBelow]
theorem mapAtParts_none {sel F c} {path : List Nat} : ∀ (ps : List Ex), (∀ p y, path.length < p.length → sel p y = false) →
    mapAtParts sel F path ps = ps ∧ sumParts sel c path ps = 0
  | [], _ => by simp [mapAtParts, sumParts]
  | h :: as, hs => by
    have := mapAtArgs_none (F := F) (c := c) (path := path) 1 as hs
    simp [mapAtParts, sumParts, this]
theorem mapAtArgs_none {sel F c} {path : List Nat} (i : Nat) : ∀ (as : List Ex), (∀ p y, path.length < p.length → sel p y = false) →
    mapAtArgs sel F path i as = as ∧ sumArgs sel c path i as = 0
  | [], _ => by simp [mapAtArgs, sumArgs]
  | a :: as, hs => by
    have h1 := below_none (F := F) (c := c) (path := path ++ [i]) a (fun p y hp => hs p y (by simp at hp; omega))
    have h2 := mapAtArgs_none (F := F) (c := c) (path := path) (i + 1) as hs
    have h3 : sel (path ++ [i]) a = false := hs _ _ (by simp)
    simp [mapAtArgs, sumArgs, mapAt_eq, h1, h2, h3]
end

/-- What a walker needs to know about the applied function, on the subexpressions `P`. -/
structure Acts (P : Ex → Prop) (f : LevelFn) (sel : List Nat → Ex → Bool) (F : List Nat → Ex → Ex) (c : List Nat → Ex → Int) : Prop where
  parts : ∀ ps, P (.expr ps) → ps ≠ [] ∧ ∀ a ∈ ps, P a
  act : ∀ y p g, P y → f (below sel F p y) p g = some (F p (below sel F p y), g + c p y)

/-- Levels `lo` to `hi`. -/
def atLevels (lo hi : Int) (p : List Nat) (_ : Ex) : Bool := decide (lo ≤ p.length) && decide ((p.length : Int) ≤ hi)

mutual
theorem walkMap_eq {P f F c} {lo hi : Int} (h : Acts P f (atLevels lo hi) F c) {path : List Nat} (hl : (path.length : Int) < hi) :
    ∀ (e : Ex) (g : Int), P e → walkMap f lo hi path e g = some (below (atLevels lo hi) F path e, g + sumBelow (atLevels lo hi) c path e)
  | .expr ps, g, he => by
    have := walkMapParts_eq h hl ps g (h.parts ps he)
    simp [walkMap, below, sumBelow, this]
  | .sym _, _, _ | .str _, _, _ | .int _, _, _ | .rat _ _, _, _ | .flt _, _, _ | .cplx _ _, _, _ => by simp [walkMap, below, sumBelow]
theorem walkMapParts_eq {P f F c} {lo hi : Int} (h : Acts P f (atLevels lo hi) F c) {path : List Nat} (hl : (path.length : Int) < hi) :
    ∀ (ps : List Ex) (g : Int), ps ≠ [] ∧ (∀ a ∈ ps, P a) →
      walkMapParts f lo hi path ps g = some (.expr (mapAtParts (atLevels lo hi) F path ps), g + sumParts (atLevels lo hi) c path ps)
  | [], _, he => absurd rfl he.1
  | x :: as, g, he => by
    have := walkMapArgs_eq h hl 1 as g (fun a ha => he.2 a (List.mem_cons_of_mem _ ha))
    simp [walkMapParts, mapAtParts, sumParts, this]
theorem walkMapArgs_eq {P f F c} {lo hi : Int} (h : Acts P f (atLevels lo hi) F c) {path : List Nat} (hl : (path.length : Int) < hi) (i : Nat) :
    ∀ (as : List Ex) (g : Int), (∀ a ∈ as, P a) →
      walkMapArgs f lo hi path i as g = some (mapAtArgs (atLevels lo hi) F path i as, g + sumArgs (atLevels lo hi) c path i as)
  | [], _, _ => by simp [walkMapArgs, mapAtArgs, sumArgs]
  | a :: as, g, he => by
    have ha := he a (by simp)
    have hlen : ((path ++ [i]).length : Int) = path.length + 1 := by simp
    have h1 : (if (path.length : Int) + 1 < hi then walkMap f lo hi (path ++ [i]) a g else some (a, g)) =
        some (below (atLevels lo hi) F (path ++ [i]) a, g + sumBelow (atLevels lo hi) c (path ++ [i]) a) := by
      by_cases hc : (path.length : Int) + 1 < hi
      · rw [if_pos hc, walkMap_eq h (path := path ++ [i]) (by omega) a g ha]
      · have := below_none (F := F) (c := c) (sel := atLevels lo hi) (path := path ++ [i]) a (fun p y hp => by
          simp only [atLevels, Bool.and_eq_false_imp, decide_eq_true_eq, decide_eq_false_iff_not]
          intro _
          omega)
        rw [if_neg hc, this.1, this.2, add_zero]
    have hsel : atLevels lo hi (path ++ [i]) a = decide ((path.length : Int) + 1 ≥ lo) := by
      simp only [atLevels, hlen]
      rw [show decide ((path.length : Int) + 1 ≤ hi) = true from by simpa using (by omega)]
      simp
    rw [walkMapArgs, h1, Option.bind_some]
    by_cases hc : (path.length : Int) + 1 ≥ lo
    · rw [if_pos hc, h.act a _ _ ha, Option.bind_some, walkMapArgs_eq h hl (i + 1) as _ (fun x hx => he x (List.mem_cons_of_mem _ hx))]
      simp only [Option.map_some, mapAtArgs, sumArgs, mapAt_eq, hsel, decide_eq_true hc, if_true]
      rw [show ∀ x y z w : Int, x + y + z + w = x + (y + z + w) from fun _ _ _ _ => by omega]
    · rw [if_neg hc, Option.bind_some, walkMapArgs_eq h hl (i + 1) as _ (fun x hx => he x (List.mem_cons_of_mem _ hx))]
      simp only [Option.map_some, mapAtArgs, sumArgs, mapAt_eq, hsel, decide_eq_false hc, Bool.false_eq_true, if_false]
      rw [show ∀ x y w : Int, x + y + w = x + (y + 0 + w) from fun _ _ _ => by omega]
end

/-! ### The walker that knows depths -/

theorem depthArgs_pos : ∀ as : List Ex, 1 ≤ depthArgs as
  | [] => by simp [depthArgs]
  | a :: as => by
    have := depthArgs_pos as
    simp only [depthArgs]
    omega

theorem depth_pos (e : Ex) : 1 ≤ depth e := by
  cases e with
  | expr ps => cases ps <;> simp [depth, depthParts]
  | _ => simp [depth]

mutual
theorem calcDepth_eq : ∀ e : Ex, calcDepth e = depth e
  | .expr ps => by rw [calcDepth, depth, calcDepthParts_eq ps]
  | .sym _ | .str _ | .int _ | .rat _ _ | .flt _ | .cplx _ _ => by simp [calcDepth, depth]
theorem calcDepthParts_eq : ∀ ps : List Ex, calcDepthParts ps = depthParts ps
  | [] => by simp [calcDepthParts, depthParts]
  | h :: as => by
    rw [calcDepthParts, depthParts, calcDepthArgs_eq as 1]
    have := depthArgs_pos as
    split_ifs with e
    · subst e; simp [depthArgs]
    · omega
theorem calcDepthArgs_eq : ∀ (as : List Ex) (m : Nat), calcDepthArgs (m + 0) as = max m (if as = [] then m else depthArgs as)
  | [], m => by simp [calcDepthArgs]
  | a :: as, m => by
    simp only [calcDepthArgs, depthArgs, Nat.add_zero, calcDepth_eq a]
    have := calcDepthArgs_eq as (max m (depth a))
    rw [Nat.add_zero] at this
    rw [this]
    have := depth_pos a
    cases as <;> simp [depthArgs] <;> omega
end

/-- The positions that `expressionWalkMapBackwards` selects. -/
def backSel (s : LevelSpec) (p : List Nat) (y : Ex) : Bool :=
  s.checkLevel (if (exprParts y).isSome then (p.length : Int) else (p.length : Int) + 1) && s.checkDepth (depth y)

mutual
theorem walkBack_eq {P f F c} {s : LevelSpec} (h : Acts P f (backSel s) F c) {path : List Nat} :
    ∀ (e : Ex) (g : Int), P e → walkBack f s path e g = some (below (backSel s) F path e, (depth e : Int), g + sumBelow (backSel s) c path e)
  | .expr ps, g, he => by
    have := walkBackParts_eq h (path := path) ps g (h.parts ps he)
    simp [walkBack, below, sumBelow, this, depth]
  | .sym _, _, _ | .str _, _, _ | .int _, _, _ | .rat _ _, _, _ | .flt _, _, _ | .cplx _ _, _, _ => by simp [walkBack, below, sumBelow, depth]
theorem walkBackParts_eq {P f F c} {s : LevelSpec} (h : Acts P f (backSel s) F c) {path : List Nat} :
    ∀ (ps : List Ex) (g : Int), ps ≠ [] ∧ (∀ a ∈ ps, P a) →
      walkBackParts f s path ps g = some (.expr (mapAtParts (backSel s) F path ps), (depthParts ps : Int), g + sumParts (backSel s) c path ps)
  | [], _, he => absurd rfl he.1
  | x :: as, g, he => by
    have := walkBackArgs_eq h (path := path) 1 as 1 g le_rfl (fun a ha => he.2 a (List.mem_cons_of_mem _ ha))
    have hp := depthArgs_pos as
    rw [show ((1 : Nat) : Int) = 1 from rfl] at this
    simp only [walkBackParts, mapAtParts, sumParts, this, Option.map_some, depthParts]
    rw [show max (1 : Nat) (depthArgs as) = depthArgs as by omega]
    refine congrArg some ?_
    simp
    omega
theorem walkBackArgs_eq {P f F c} {s : LevelSpec} (h : Acts P f (backSel s) F c) {path : List Nat} (i : Nat) :
    ∀ (as : List Ex) (m : Nat) (g : Int), 1 ≤ m → (∀ a ∈ as, P a) →
      walkBackArgs f s path i as m g =
        some (mapAtArgs (backSel s) F path i as, ((max m (depthArgs as) : Nat) : Int), g + sumArgs (backSel s) c path i as)
  | [], m, _, hm, _ => by simp [walkBackArgs, mapAtArgs, sumArgs, depthArgs, hm]
  | a :: as, m, g, hm, he => by
    have ha := he a (by simp)
    have hsel : (s.checkLevel (if (exprParts a).isSome then (path.length : Int) + 1 else (path.length : Int) + 1 + 1) && s.checkDepth (depth a : Int)) =
        backSel s (path ++ [i]) a := by simp [backSel]
    have hmax : (if ((depth a : Nat) : Int) > (m : Int) then ((depth a : Nat) : Int) else (m : Int)) = ((max m (depth a) : Nat) : Int) := by
      split_ifs <;> omega
    have ih := fun g' => walkBackArgs_eq h (path := path) (i + 1) as (max m (depth a)) g' (by omega) (fun x hx => he x (List.mem_cons_of_mem _ hx))
    have hd : max (max m (depth a)) (depthArgs as) = max m (depthArgs (a :: as)) := by simp only [depthArgs]; omega
    rw [walkBackArgs, walkBack_eq h a g ha, Option.bind_some]
    simp only [hsel, hmax]
    by_cases hc : backSel s (path ++ [i]) a = true
    · rw [if_pos hc, h.act a _ _ ha, Option.bind_some, ih, hd]
      simp only [Option.map_some, mapAtArgs, sumArgs, mapAt_eq, hc, if_true]
      rw [show ∀ x y z w : Int, x + y + z + w = x + (y + z + w) from fun _ _ _ _ => by omega]
    · rw [if_neg hc, Option.bind_some, ih, hd]
      simp only [Option.map_some, mapAtArgs, sumArgs, mapAt_eq, hc, if_false]
      rw [show ∀ x y w : Int, x + y + w = x + (y + 0 + w) from fun _ _ _ => by omega]
      rfl
end

end Expreduce
