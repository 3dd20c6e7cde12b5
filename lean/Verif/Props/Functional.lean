import Verif.Proofs.Functional
import Verif.Props.Lists2

/-! Property C38: functions with level specifications. -/

namespace Expreduce
open Ex

/-! ### Level specifications -/

theorem isNegInfinity_list (as : List Ex) : isNegInfinity (.expr (S "List" :: as)) = false := by
  simp only [isNegInfinity, isEqual]
  split_ifs
  · rfl
  · simp [isEqualParts, isEqual, S, vIf]

/-- The parsed specification. -/
def levelSpecOf (m n : Int) : LevelSpec :=
  ⟨decide (m < 0), decide (n < 0), if m < 0 then -m else m, if n < 0 then -n else n⟩

theorem levelPair_eq {m n : Int} (h1 : -2 ^ 63 < m) (h2 : m < 2 ^ 63) (h3 : -2 ^ 63 < n) (h4 : n < 2 ^ 63) : levelPair m n = levelSpecOf m n := by
  have e1 : wrap64 (-m) = -m := wrap64_of_fits (by omega) (by omega)
  have e2 : wrap64 (-n) = -n := wrap64_of_fits (by omega) (by omega)
  simp only [levelPair, levelSpecOf, e1, e2]
  rcases lt_or_ge m 0 with hm | hm <;> rcases lt_or_ge n 0 with hn | hn
  · rw [if_neg (by omega), if_pos (by omega)]; simp [hm, hn]
  · rw [if_neg (by omega), if_neg (by omega), if_pos (by omega)]; simp [hm, not_lt.2 hn]
  · rw [if_neg (by omega), if_neg (by omega), if_neg (by omega)]; simp [not_lt.2 hm, hn]
  · rw [if_pos (by omega)]; simp [not_lt.2 hm, not_lt.2 hn]

theorem parse_levels {sp : Ex} {m n : Int} (h : LevelsAre sp m n) : parseLevelSpec sp = some (levelSpecOf m n) := by
  cases h with
  | upTo h1 h2 =>
    have e1 : wrap64 n = n := wrap64_of_fits (by omega) h2
    have e2 : wrap64 (-n) = -n := wrap64_of_fits (by omega) (by omega)
    simp only [parseLevelSpec, e1, e2, levelSpecOf]
    split_ifs <;> simp_all
  | exactly h1 h2 =>
    have e1 : wrap64 m = m := wrap64_of_fits (by omega) h2
    have e2 : wrap64 (-m) = -m := wrap64_of_fits (by omega) (by omega)
    have ha : argsOf "System`List" (.expr [S "List", .int m]) = some [.int m] := by simp [argsOf, S]
    simp only [parseLevelSpec, isNegInfinity_list, Bool.false_eq_true, if_false, ha, e1, e2, levelSpecOf]
    split_ifs with hlt
    · simp [hlt]
    · simp [hlt]
  | range h1 h2 h3 h4 =>
    have e1 : wrap64 m = m := wrap64_of_fits (by omega) h2
    have e2 : wrap64 n = n := wrap64_of_fits (by omega) h4
    have ha : argsOf "System`List" (.expr [S "List", .int m, .int n]) = some [.int m, .int n] := by simp [argsOf, S]
    simp only [parseLevelSpec, isNegInfinity_list, Bool.false_eq_true, if_false, ha, levelBound, e1, e2, Option.bind_some, Option.map_some]
    rw [levelPair_eq h1 h2 h3 h4]

/-! ### The applied functions -/

theorem sub_of_part {ps : List Ex} {a z : Ex} (ha : a ∈ ps) (hz : z = a ∨ z ∈ Headed.subs a) : z ∈ Headed.subs (.expr ps) := by
  show z ∈ Headed.subsL ps
  induction ps with
  | nil => simp at ha
  | cons b l ih =>
    simp only [Headed.subsL, List.mem_cons, List.mem_append, List.cons_append]
    rcases List.mem_cons.1 ha with rfl | ha
    · rcases hz with rfl | hz
      · exact .inl rfl
      · exact .inr (.inl hz)
    · exact .inr (.inr (ih ha))

theorem acts_map (f : Ex) (sel) : Acts Headed (wrapWithHead f) sel (fun _ x => .expr [f, x]) (fun _ _ => 0) :=
  ⟨fun _ h => h.parts, fun _ _ _ _ => by simp [wrapWithHead]⟩

theorem acts_indexed (f : Ex) (sel) : Acts Headed (wrapWithHeadIndexed f) sel (fun p x => .expr [f, x, positionEx p]) (fun _ _ => 0) :=
  ⟨fun _ h => h.parts, fun _ _ _ _ => by simp [wrapWithHeadIndexed, positionEx]⟩

theorem acts_apply (f : Ex) (sel) : Acts Headed (applyHead f) sel (fun _ x => setHead f x) (fun _ _ => 0) :=
  ⟨fun _ h => h.parts, fun y _ _ hy => by
    cases y with
    | expr ps =>
      obtain ⟨hne, -⟩ := hy.parts
      cases ps with
      | nil => exact absurd rfl hne
      | cons => simp [applyHead, below, mapAtParts, setHead]
    | _ => simp [applyHead, below, setHead]⟩

theorem sum_zero {sel} : ∀ (e : Ex) (path : List Nat), sumBelow sel (fun _ _ => 0) path e = 0
  | .expr ps, path => by rw [sumBelow]; exact parts ps path
  | .sym _, _ | .str _, _ | .int _, _ | .rat _ _, _ | .flt _, _ | .cplx _ _, _ => by simp [sumBelow]
where
  parts : ∀ (ps : List Ex) (path : List Nat), sumParts sel (fun _ _ => 0) path ps = 0
    | [], _ => by simp [sumParts]
    | _ :: as, path => by rw [sumParts]; exact args as 1 path
  args : ∀ (as : List Ex) (i : Nat) (path : List Nat), sumArgs sel (fun _ _ => 0) path i as = 0
    | [], _, _ => by simp [sumArgs]
    | a :: as, i, path => by simp [sumArgs, sum_zero a, args as]

/-! ### The walk as a whole -/

/-- The walk for nonnegative bounds. -/
theorem levelWalk_levels {P f F c} {m n : Int} (hm : 0 ≤ m) (hn : 0 ≤ n) (h10 : ¬ (m = 1 ∧ n = 0)) (gen : Bool)
    (h : Acts P f (atLevels m n) F c) (e : Ex) (he : P e) :
    levelWalk f gen (levelSpecOf m n) e = some (exOrGenerated gen
      (mapAt (atLevels m n) F [] e, sumBelow (atLevels m n) c [] e + if atLevels m n [] e then c [] e else 0)) := by
  have hs : levelSpecOf m n = ⟨false, false, m, n⟩ := by simp [levelSpecOf, not_lt.2 hm, not_lt.2 hn]
  have hcl : (LevelSpec.mk false false m n).checkLevel 0 = atLevels m n [] e := by
    simp [LevelSpec.checkLevel, atLevels]
  have hcd : ∀ d, (LevelSpec.mk false false m n).checkDepth d = true := by simp [LevelSpec.checkDepth]
  rw [hs, mapAt_eq]
  have hact := h.act e [] 0 he
  cases e with
  | expr ps =>
    simp only [levelWalk, Bool.not_false, Bool.and_self, if_true, hcl, hcd, Bool.and_true]
    by_cases h00 : m = 0 ∧ n = 0
    · obtain ⟨rfl, rfl⟩ := h00
      have hb := below_none (F := F) (c := c) (sel := atLevels 0 0) (path := []) (.expr ps) (fun p y hp => by
        simp only [atLevels, Bool.and_eq_false_imp, decide_eq_true_eq, decide_eq_false_iff_not]
        intro _
        simp at hp
        omega)
      have hsel : atLevels 0 0 [] (.expr ps) = true := by simp [atLevels]
      rw [hb.1] at hact ⊢
      rw [if_pos ⟨rfl, rfl⟩, hact, hb.2, if_pos hsel, if_pos hsel]
      rfl
    · rw [if_neg h00]
      have hw : walkMapParts f m n [] ps 0 = some (below (atLevels m n) F [] (.expr ps), 0 + sumBelow (atLevels m n) c [] (.expr ps)) := by
        rcases lt_or_ge 0 n with hn' | hn'
        · rw [walkMapParts_eq h (path := []) (by simpa using hn') ps 0 (h.parts ps he)]
          simp [below, sumBelow]
        · obtain rfl : n = 0 := by omega
          have hm2 : 2 ≤ m := by omega
          have hb := below_none (F := F) (c := c) (sel := atLevels m 0) (path := []) (.expr ps) (fun p y hp => by
            simp only [atLevels, Bool.and_eq_false_imp, decide_eq_true_eq, decide_eq_false_iff_not]
            intro _
            omega)
          rw [hb.1, hb.2]
          have hargs : ∀ (as : List Ex) (i : Nat) (g : Int), walkMapArgs f m 0 [] i as g = some (as, g) := by
            intro as
            induction as with
            | nil => intro i g; simp [walkMapArgs]
            | cons a as ih =>
              intro i g
              simp only [walkMapArgs, List.length_nil]
              rw [if_neg (by norm_num), Option.bind_some, if_neg (by norm_num; omega), Option.bind_some, ih]
              rfl
          cases ps with
          | nil => exact absurd rfl (h.parts [] he).1
          | cons x as => simp [walkMapParts, hargs]
      rw [hw, Option.bind_some]
      by_cases hc : atLevels m n [] (.expr ps) = true
      · rw [if_pos hc, if_pos hc, if_pos hc, h.act _ _ _ he]
        simp
      · rw [if_neg hc, if_neg hc, if_neg hc]
        simp
  | _ =>
    simp only [levelWalk, hcl, hcd, Bool.and_true]
    split_ifs
    · rw [show ∀ x : Ex, (∀ ps, x ≠ .expr ps) → below (atLevels m n) F [] x = x from fun x hx => by cases x <;> simp_all [below]] at hact
      · rw [hact]
        simp [below, sumBelow]
      · simp
    · simp [below, sumBelow]

theorem atLevels_inLevels {m n : Int} (hm : 0 ≤ m) (hn : 0 ≤ n) : atLevels m n = inLevels m n := by
  funext p y
  simp [atLevels, inLevels, hm, hn]

/-- C38. Nonnegative levels: `Map`, `MapIndexed` and `Apply` with the level specification `{m, n}` (or `n` for `{1, n}`, `{n}` for `{n, n}`) act on
exactly the subexpressions whose level is between `m` and `n`, and keep everything else; the only exception is `{1, 0}` (see `C38_zero`). -/
theorem C38_levels_partial (P f e sp : Ex) (m n : Int) (ev : Ex → Option Ex) (hsp : LevelsAre sp m n) (hm : 0 ≤ m) (hn : 0 ≤ n) (h10 : ¬ (m = 1 ∧ n = 0))
    (he : Headed e) :
    mapFn ev [P, f, e, sp] = some (mapAt (inLevels m n) (fun _ x => .expr [f, x]) [] e) ∧
    mapIndexedFn ev [P, f, e, sp] = some (mapAt (inLevels m n) (fun p x => .expr [f, x, positionEx p]) [] e) ∧
    applyFn ev [P, f, e, sp] = some (mapAt (inLevels m n) (fun _ x => setHead f x) [] e) := by
  rw [← atLevels_inLevels hm hn]
  refine ⟨?_, ?_, ?_⟩
  · simp only [mapFn, levelSpecFunction, parse_levels hsp, Bool.false_eq_true, if_false]
    rw [levelWalk_levels hm hn h10 false (acts_map f _) e he]
    rfl
  · simp only [mapIndexedFn, levelSpecFunction, parse_levels hsp, Bool.false_eq_true, if_false]
    rw [levelWalk_levels hm hn h10 false (acts_indexed f _) e he]
    rfl
  · simp only [applyFn, levelSpecFunction, parse_levels hsp, Bool.false_eq_true, if_false]
    rw [levelWalk_levels hm hn h10 false (acts_apply f _) e he]
    rfl

/-- The hypotheses are met: `Map[f, {a, {b}}, {0, 1}]` is `f[{f[a], f[{b}]}]`. -/
example : let a := Ex.sym "Global`a"; let b := Ex.sym "Global`b"; let f := Ex.sym "Global`f"
    LevelsAre (listOf [.int 0, .int 1]) 0 1 ∧
    mapFn some [S "Map", f, listOf [a, listOf [b]], listOf [.int 0, .int 1]] =
      some (.expr [f, listOf [.expr [f, a], .expr [f, listOf [b]]]]) :=
  ⟨.range (by norm_num) (by norm_num) (by norm_num) (by norm_num), by decide +kernel⟩

/-- C38. `Map[f, e, 0]` (levels 1 to 0, no level at all) is not `e`: the function is applied at level 1. -/
theorem C38_zero (P f h sp : Ex) (as : List Ex) (ev : Ex → Option Ex) (hsp : LevelsAre sp 1 0) :
    mapFn ev [P, f, .expr (h :: as), sp] = some (.expr (h :: as.map (fun a => .expr [f, a]))) := by
  have hargs : ∀ (as : List Ex) (i : Nat) (g : Int), walkMapArgs (wrapWithHead f) 1 0 [] i as g = some (as.map (fun a => .expr [f, a]), g) := by
    intro as
    induction as with
    | nil => intro i g; simp [walkMapArgs]
    | cons a as ih => intro i g; simp [walkMapArgs, wrapWithHead, ih]
  simp only [mapFn, levelSpecFunction, parse_levels hsp, Bool.false_eq_true, if_false]
  simp [levelWalk, levelSpecOf, walkMapParts, hargs, LevelSpec.checkLevel, LevelSpec.checkDepth, exOrGenerated]

/-- The hypothesis is met: the level specification `0`. -/
example : LevelsAre (.int 0) 1 0 := .upTo (by norm_num) (by norm_num)

/-! ### Infinity -/

/-- All subexpressions of level at least `m`. -/
def fromLevel (m : Int) (p : List Nat) (_ : Ex) : Bool := decide (m ≤ p.length)

mutual
theorem mapAt_congr {sel sel' F} {path : List Nat} : ∀ (e : Ex) (k : Nat), (∀ p y, p.length + depth y ≤ k → sel p y = sel' p y) →
    path.length + depth e ≤ k → mapAt sel F path e = mapAt sel' F path e
  | .expr ps, k, h, hk => by
    rw [mapAt, mapAt, mapAtParts_congr ps k h hk, h _ _ hk]
  | .sym _, k, h, hk | .str _, k, h, hk | .int _, k, h, hk | .rat _ _, k, h, hk | .flt _, k, h, hk | .cplx _ _, k, h, hk => by
    simp only [mapAt, h _ _ hk]
theorem mapAtParts_congr {sel sel' F} {path : List Nat} : ∀ (ps : List Ex) (k : Nat), (∀ p y, p.length + depth y ≤ k → sel p y = sel' p y) →
    path.length + depth (.expr ps) ≤ k → mapAtParts sel F path ps = mapAtParts sel' F path ps
  | [], _, _, _ => by simp [mapAtParts]
  | x :: as, k, h, hk => by
    rw [mapAtParts, mapAtParts, mapAtArgs_congr 1 as k h (by simp only [depth, depthParts] at hk; omega)]
theorem mapAtArgs_congr {sel sel' F} {path : List Nat} (i : Nat) : ∀ (as : List Ex) (k : Nat), (∀ p y, p.length + depth y ≤ k → sel p y = sel' p y) →
    path.length + 1 + depthArgs as ≤ k → mapAtArgs sel F path i as = mapAtArgs sel' F path i as
  | [], _, _, _ => by simp [mapAtArgs]
  | a :: as, k, h, hk => by
    simp only [depthArgs] at hk
    rw [mapAtArgs, mapAtArgs, mapAt_congr a k h (by simp; omega), mapAtArgs_congr (i + 1) as k h (by omega)]
end

/-- C38. The level specification `Infinity` means all levels from 1, `{0, Infinity}` all levels, for expressions of depth below 2³¹. -/
theorem C38_infinity (P f e : Ex) (ev : Ex → Option Ex) (he : Headed e) (hd : depth e < 2 ^ 31) :
    mapFn ev [P, f, e, S "Infinity"] = some (mapAt (fromLevel 1) (fun _ x => .expr [f, x]) [] e) ∧
    mapFn ev [P, f, e, .expr [S "List", .int 0, S "Infinity"]] = some (mapAt (fromLevel 0) (fun _ x => .expr [f, x]) [] e) ∧
    applyFn ev [P, f, e, S "Infinity"] = some (mapAt (fromLevel 1) (fun _ x => setHead f x) [] e) ∧
    mapIndexedFn ev [P, f, e, S "Infinity"] = some (mapAt (fromLevel 1) (fun p x => .expr [f, x, positionEx p]) [] e) := by
  have p1 : parseLevelSpec (S "Infinity") = some (levelSpecOf 1 levelInf) := by decide +kernel
  have p2 : parseLevelSpec (.expr [S "List", .int 0, S "Infinity"]) = some (levelSpecOf 0 levelInf) := by decide +kernel
  have hsel : ∀ m : Int, ∀ F, mapAt (atLevels m levelInf) F [] e = mapAt (fromLevel m) F [] e := fun m F =>
    mapAt_congr e (2 ^ 31 - 1) (fun p y hp => by
      have : (p.length : Int) ≤ levelInf := by
        have := depth_pos y
        unfold levelInf
        omega
      simp [atLevels, fromLevel, this]) (by simp; omega)
  have hi : (0 : Int) ≤ levelInf := by unfold levelInf; norm_num
  have hi' : levelInf ≠ 0 := by unfold levelInf; norm_num
  refine ⟨?_, ?_, ?_, ?_⟩
  · simp only [mapFn, levelSpecFunction, p1, Bool.false_eq_true, if_false]
    rw [levelWalk_levels (by norm_num) hi (by simp [hi']) false (acts_map f _) e he, hsel]
    rfl
  · simp only [mapFn, levelSpecFunction, p2, Bool.false_eq_true, if_false]
    rw [levelWalk_levels (by norm_num) hi (by simp) false (acts_map f _) e he, hsel]
    rfl
  · simp only [applyFn, levelSpecFunction, p1, Bool.false_eq_true, if_false]
    rw [levelWalk_levels (by norm_num) hi (by simp [hi']) false (acts_apply f _) e he, hsel]
    rfl
  · simp only [mapIndexedFn, levelSpecFunction, p1, Bool.false_eq_true, if_false]
    rw [levelWalk_levels (by norm_num) hi (by simp [hi']) false (acts_indexed f _) e he, hsel]
    rfl

/-! ### Depths -/

/-- What the walker selects: atoms are taken to be one level deeper than they are. -/
def inLevelsOff (m n : Int) (p : List Nat) (y : Ex) : Bool := inLevels m n (if compound y then p else 0 :: p) y

theorem backSel_eq {m n : Int} (h : m < 0 ∨ n < 0) : backSel (levelSpecOf m n) = inLevelsOff m n := by
  funext p y
  have hc : (exprParts y).isSome = compound y := by cases y <;> rfl
  have hl : ((if compound y then p else 0 :: p).length : Int) = if compound y then (p.length : Int) else p.length + 1 := by
    split <;> simp
  simp only [backSel, inLevelsOff, inLevels, hc, hl]
  generalize (if compound y then (p.length : Int) else p.length + 1) = l
  rcases lt_or_ge m 0 with hm | hm <;> rcases lt_or_ge n 0 with hn | hn
  · simp [LevelSpec.checkLevel, LevelSpec.checkDepth, levelSpecOf, hm, hn, not_le.2 hm, not_le.2 hn]
  · simp only [LevelSpec.checkLevel, LevelSpec.checkDepth, levelSpecOf, hm, hn, not_le.2 hm, not_lt.2 hn, decide_true, decide_false, if_true, if_false]
    simp [Bool.and_comm]
  · simp [LevelSpec.checkLevel, LevelSpec.checkDepth, levelSpecOf, hm, hn, not_lt.2 hm, not_le.2 hn]
  · omega

theorem levelWalk_back {P f F c} {m n : Int} (hmn : m < 0 ∨ n < 0) (gen : Bool) (h : Acts P f (inLevelsOff m n) F c) (ps : List Ex) (he : P (.expr ps)) :
    levelWalk f gen (levelSpecOf m n) (.expr ps) = some (exOrGenerated gen (mapAt (inLevelsOff m n) F [] (.expr ps),
      sumBelow (inLevelsOff m n) c [] (.expr ps) + if inLevelsOff m n [] (.expr ps) then c [] (.expr ps) else 0)) := by
  rw [← backSel_eq hmn] at h ⊢
  have h0 : ¬ ((levelSpecOf m n).lo = 0 ∧ (levelSpecOf m n).hi = 0) := by
    simp only [levelSpecOf]
    split_ifs <;> omega
  have h1 : (!(levelSpecOf m n).minDepth && !(levelSpecOf m n).maxDepth) = false := by
    simp only [levelSpecOf]
    rcases hmn with hm | hm <;> simp [hm]
  have hroot : ((levelSpecOf m n).checkLevel 0 && (levelSpecOf m n).checkDepth ((depthParts ps : Nat) : Int)) = backSel (levelSpecOf m n) [] (.expr ps) := by
    simp [backSel, exprParts, depth]
  simp only [levelWalk, if_neg h0, h1, Bool.false_eq_true, if_false]
  rw [walkBackParts_eq h (path := []) ps 0 (h.parts ps he), Option.bind_some]
  simp only [hroot, mapAt, below, sumBelow]
  by_cases hc : backSel (levelSpecOf m n) [] (.expr ps) = true
  · have := h.act (.expr ps) [] (0 + sumParts (backSel (levelSpecOf m n)) c [] ps) he
    simp only [below] at this
    rw [if_pos hc, if_pos hc, if_pos hc, this]
    simp
  · rw [if_neg hc, if_neg hc, if_neg hc]
    simp

/-- C38. Specifications with a negative bound (depths), exactly: on a compound expression the function is applied at the selected positions, where
atoms count as one level deeper than they are. -/
theorem C38_depths_exact (P f sp : Ex) (ps : List Ex) (m n : Int) (ev : Ex → Option Ex) (hsp : LevelsAre sp m n) (hmn : m < 0 ∨ n < 0)
    (he : Headed (.expr ps)) :
    mapFn ev [P, f, .expr ps, sp] = some (mapAt (fun p y => inLevels m n (if compound y then p else 0 :: p) y) (fun _ x => .expr [f, x]) [] (.expr ps)) ∧
    mapIndexedFn ev [P, f, .expr ps, sp] =
      some (mapAt (fun p y => inLevels m n (if compound y then p else 0 :: p) y) (fun p x => .expr [f, x, positionEx p]) [] (.expr ps)) ∧
    applyFn ev [P, f, .expr ps, sp] = some (mapAt (fun p y => inLevels m n (if compound y then p else 0 :: p) y) (fun _ x => setHead f x) [] (.expr ps)) := by
  refine ⟨?_, ?_, ?_⟩
  · simp only [mapFn, levelSpecFunction, parse_levels hsp, Bool.false_eq_true, if_false]
    rw [levelWalk_back hmn false (acts_map f _) ps he]
    rfl
  · simp only [mapIndexedFn, levelSpecFunction, parse_levels hsp, Bool.false_eq_true, if_false]
    rw [levelWalk_back hmn false (acts_indexed f _) ps he]
    rfl
  · simp only [applyFn, levelSpecFunction, parse_levels hsp, Bool.false_eq_true, if_false]
    rw [levelWalk_back hmn false (acts_apply f _) ps he]
    rfl

/-- C38. So the specification is right on compound expressions if both bounds are depths, or if the upper bound excludes atoms (`{m, n}` with `n ≤ -2`). -/
theorem C38_depths (P f sp : Ex) (ps : List Ex) (m n : Int) (ev : Ex → Option Ex) (hsp : LevelsAre sp m n) (hmn : (m < 0 ∧ n < 0) ∨ n ≤ -2)
    (he : Headed (.expr ps)) :
    mapFn ev [P, f, .expr ps, sp] = some (mapAt (inLevels m n) (fun _ x => .expr [f, x]) [] (.expr ps)) ∧
    mapIndexedFn ev [P, f, .expr ps, sp] = some (mapAt (inLevels m n) (fun p x => .expr [f, x, positionEx p]) [] (.expr ps)) ∧
    applyFn ev [P, f, .expr ps, sp] = some (mapAt (inLevels m n) (fun _ x => setHead f x) [] (.expr ps)) := by
  have hsel : (fun p y => inLevels m n (if compound y then p else 0 :: p) y) = inLevels m n := by
    funext p y
    by_cases hc : compound y = true
    · rw [if_pos hc]
    · rw [if_neg hc]
      have hd : depth y = 1 := by cases y <;> simp_all [compound, depth]
      rcases hmn with ⟨h1, h2⟩ | h2
      · simp [inLevels, not_le.2 h1, not_le.2 h2]
      · have : ¬ (0 ≤ n) := by omega
        simp only [inLevels, this, if_false, hd]
        rw [show decide (-n ≤ ((1 : Nat) : Int)) = false from by simp; omega]
        simp
  have := C38_depths_exact P f sp ps m n ev hsp (by omega) he
  rw [hsel] at this
  exact this

/-- The hypotheses are met: `Map[f, {a, {b}}, {-1}]` is `{f[a], {f[b]}}`. -/
example : let a := Ex.sym "Global`a"; let b := Ex.sym "Global`b"; let f := Ex.sym "Global`f"
    LevelsAre (listOf [.int (-1)]) (-1) (-1) ∧ mapFn some [S "Map", f, listOf [a, listOf [b]], listOf [.int (-1)]] =
      some (listOf [.expr [f, a], listOf [.expr [f, b]]]) :=
  ⟨.exactly (by norm_num) (by norm_num), by decide +kernel⟩

/-- C38. The specifications that mix levels and depths are wrong for atoms: `Map[f, {a, {b}}, {2, -1}]` also maps `a`, which is at level 1;
`Map[f, {a, b}, {-1, 1}]` maps nothing although `a` and `b` are at level 1 and have depth 1. A whole expression that is an atom has depth 0 for the
code: `Map[f, a, {-1}]` is `a`. -/
theorem C38_mixed_wrong (ev : Ex → Option Ex) : let a := Ex.sym "Global`a"; let b := Ex.sym "Global`b"; let f := Ex.sym "Global`f"
    let F : List Nat → Ex → Ex := fun _ x => .expr [f, x]
    (mapFn ev [S "Map", f, listOf [a, listOf [b]], listOf [.int 2, .int (-1)]] = some (listOf [.expr [f, a], listOf [.expr [f, b]]]) ∧
      mapAt (inLevels 2 (-1)) F [] (listOf [a, listOf [b]]) = listOf [a, listOf [.expr [f, b]]]) ∧
    (mapFn ev [S "Map", f, listOf [a, b], listOf [.int (-1), .int 1]] = some (listOf [a, b]) ∧
      mapAt (inLevels (-1) 1) F [] (listOf [a, b]) = listOf [.expr [f, a], .expr [f, b]]) ∧
    (mapFn ev [S "Map", f, a, listOf [.int (-1)]] = some a ∧ mapAt (inLevels (-1) (-1)) F [] a = .expr [f, a]) := by
  refine ⟨⟨?_, by decide +kernel⟩, ⟨?_, by decide +kernel⟩, ⟨?_, by decide +kernel⟩⟩
  · have p : parseLevelSpec (listOf [.int 2, .int (-1)]) = some ⟨false, true, 2, 1⟩ := by decide +kernel
    simp only [mapFn, levelSpecFunction, p]
    decide +kernel
  · have p : parseLevelSpec (listOf [.int (-1), .int 1]) = some ⟨true, false, 1, 1⟩ := by decide +kernel
    simp only [mapFn, levelSpecFunction, p]
    decide +kernel
  · have p : parseLevelSpec (listOf [.int (-1)]) = some ⟨true, true, 1, 1⟩ := by decide +kernel
    simp only [mapFn, levelSpecFunction, p]
    decide +kernel

/-! ### The forms with two arguments -/

/-- C38. `Map[f, h[x₁, ...]]` is `h[f[x₁], ...]`; `Apply[s, h[x₁, ...]]` for a symbol `s` is the value of `s[x₁, ...]`; atoms are returned. -/
theorem C38_simple (P f h e : Ex) (s : String) (as : List Ex) (ev : Ex → Option Ex) (he : compound e = false) :
    mapFn ev [P, f, .expr (h :: as)] = some (.expr (h :: as.map (fun a => .expr [f, a]))) ∧
    applyFn ev [P, .sym s, .expr (h :: as)] = ev (.expr (.sym s :: as)) ∧
    mapFn ev [P, f, e] = some e ∧ applyFn ev [P, f, e] = some e := by
  refine ⟨rfl, rfl, ?_, ?_⟩
  · cases e <;> simp_all [compound, mapFn, levelSpecFunction, levelSimple]
  · cases e <;> cases f <;> simp_all [compound, applyFn, levelSpecFunction, levelSimple]

/-- C38. Two failures of the forms with two arguments: `MapIndexed[f, e]` gives no positions to `f`, and `Apply` with a head that is no symbol, such as a
pure function, does nothing. -/
theorem C38_simple_wrong (P f h : Ex) (as : List Ex) (ev : Ex → Option Ex) (hf : ∀ s, f ≠ .sym s) :
    mapIndexedFn ev [P, f, .expr (h :: as)] = some (.expr (h :: as.map (fun a => .expr [f, a]))) ∧
    applyFn ev [P, f, .expr (h :: as)] = some (.expr (h :: as)) := by
  refine ⟨rfl, ?_⟩
  cases f <;> simp_all [applyFn, levelSpecFunction, levelSimple]

end Expreduce
