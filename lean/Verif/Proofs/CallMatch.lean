import Verif.Model.Algebra

/-! A call `f[a, b, ...]` is matched by `f[x_, y_, ...]` in exactly one way. -/

namespace Expreduce
open Ex

/-- `x_` -/
def argP (x : String) : Ex := .expr [S "Pattern", .sym x, .expr [S "Blank"]]

/-- The names are bound to the arguments one after the other. -/
def bindAll (pm : PM) : List String → List Ex → PM
  | x :: xs, a :: as => bindAll (pm.set x a) xs as
  | _, _ => pm

namespace CallMatch

theorem blank_any (env : MEnv) (m : Nat) (x : Ex) (hx : x ≠ .expr []) (pm : PM) : matchF env (m + 1) x (.expr [S "Blank"]) pm = some ([some pm], pm) := by
  cases x with
  | expr l =>
    cases l with
    | nil => exact absurd rfl hx
    | cons h t => rfl
  | _ => rfl

/-- The parsed form of `x_`. -/
def formP (x : String) : ParsedForm :=
  { startI := 1, endI := 1, form := .expr [S "Blank"], isBlank := true, isImpliedBs := false, isOptional := false, defaultExpr := none, patSym := some x }

theorem parseP (f : String) (d : Option Ex) (x : String) : parseForm false f d (argP x) = some (formP x) := by
  simp [parseForm, argP, stripOptional, stripTest, stripPat, argsOf, S, parseBody, formP, hasHead]

theorem mapO_some {α β : Type} (f : α → Option β) (g : α → β) (l : List α) (h : ∀ a ∈ l, f a = some (g a)) : mapO f l = some (l.map g) := by
  induction l with
  | nil => rfl
  | cons a l ih => simp [mapO, h a (by simp), ih (fun b hb => h b (by simp [hb]))]

theorem update_eq (acc : PM) : ∀ l : PM, (l.map Prod.fst).Nodup → acc.update l = l ++ acc.filter (fun kv => !(l.map Prod.fst).contains kv.1)
  | [], _ => by simp [PM.update]
  | kv :: l, h => by
    have ih := update_eq acc l (List.nodup_cons.1 h).2
    have hk := (List.nodup_cons.1 h).1
    unfold PM.update at ih ⊢
    rw [List.foldr_cons, ih, PM.set, List.filter_append, List.filter_filter, List.cons_append]
    congr 1
    congr 1
    · rw [List.filter_eq_self]
      intro a ha
      simp only [bne_iff_ne, ne_eq]
      rintro h1
      exact hk (h1 ▸ List.mem_map_of_mem ha)
    · refine List.filter_congr ?_
      intro a _
      simp only [List.map_cons, List.contains_cons, Bool.not_or]
      rfl

theorem update_self (pm : PM) (h : (pm.map Prod.fst).Nodup) : pm.update pm = pm := by
  rw [update_eq pm pm h]
  refine (congrArg (pm ++ ·) (List.filter_eq_nil_iff.2 ?_)).trans (List.append_nil _)
  intro a ha
  simp only [Bool.not_eq_true', Bool.not_eq_false, List.contains_iff_mem]
  simpa using List.mem_map_of_mem (f := Prod.fst) ha

theorem get_set_ne {pm : PM} {x y : String} {a : Ex} (h : y ≠ x) : (pm.set x a).get y = pm.get y := by
  unfold PM.set PM.get
  rw [List.lookup_cons]
  rw [show (y == x) = false by simpa using h]
  simp only
  induction pm with
  | nil => rfl
  | cons kv pm ih =>
    obtain ⟨k, v⟩ := kv
    rw [List.filter_cons]
    by_cases hk : k = x
    · subst hk
      simp only [bne_self_eq_false, Bool.false_eq_true, if_false, ih, List.lookup_cons, show (y == k) = false by simpa using h]
    · rw [if_pos (by simpa using hk), List.lookup_cons, List.lookup_cons, ih]

theorem get_set_self {pm : PM} {x : String} {a : Ex} : (pm.set x a).get x = some a := by simp [PM.set, PM.get, List.lookup_cons]

theorem nodup_set {pm : PM} {x : String} {a : Ex} (h : (pm.map Prod.fst).Nodup) : ((pm.set x a).map Prod.fst).Nodup := by
  unfold PM.set
  rw [List.map_cons, List.nodup_cons]
  constructor
  · simp
  · exact h.sublist (List.filter_sublist.map _)

theorem amiRun_args (env : MEnv) (m : Nat) (f : String) : ∀ (xs : List String) (as : List Ex) (pm : PM), xs.length = as.length → xs.Nodup →
    (∀ x ∈ xs, pm.get x = none) → (∀ a ∈ as, a ≠ .expr []) → (pm.map Prod.fst).Nodup →
    amiRun env (matchF env (m + 1)) f (xs.map formP) (as.map (fun a => [a])) pm = some [bindAll pm xs as]
  | [], [], pm, _, _, _, _, _ => rfl
  | x :: xs, a :: as, pm, hl, hn, hx, ha, hp => by
    have e1 : amiElems (matchF env (m + 1)) (formP x).form [a] pm = some [pm] := by
      simp [amiElems, formP, blank_any _ _ _ (ha a (by simp)), bindO, mapO, PM.updateO, update_self pm hp]
    have e2 : defineSequence env f (formP x) [a] pm = some (pm.set x a) := by
      simp [defineSequence, formP, hx x (by simp), attemptDefine]
    simp only [List.map_cons, amiRun, e1, bindO, mapO, e2]
    rw [amiRun_args env m f xs as (pm.set x a) (by simpa using hl) (List.nodup_cons.1 hn).2 ?_ (fun b hb => ha b (by simp [hb])) (nodup_set hp)]
    · simp [bindAll]
    · intro y hy
      rw [get_set_ne (by rintro rfl; exact (List.nodup_cons.1 hn).1 hy)]
      exact hx y (by simp [hy])

theorem completions_args : ∀ xs : List String, completions (xs.map formP) xs.length = [xs.map (fun _ => 1)]
  | [] => rfl
  | [x] => by simp [completions, formP]
  | x :: y :: xs => by
    have ih := completions_args (y :: xs)
    have ht : tries (formP x) ((x :: y :: xs).length : Nat) = [1] := by
      simp only [tries, formP, intRange, List.length_cons, Bool.false_eq_true, if_false]
      rw [show (min (1 : Int) ((xs.length + 1 + 1 : Nat) : Int) + 1 - 1).toNat = 1 by omega]
      rfl
    simp only [List.map_cons] at ih ⊢
    rw [completions, ht, List.flatMap_cons, List.flatMap_nil, List.append_nil]
    have : (((x :: y :: xs).length : Nat) : Int) - 1 = ((y :: xs).length : Nat) := by simp
    rw [this, ih]
    rfl

theorem cut_range {α : Type} : ∀ (l : List α), cutBy (List.replicate l.length 1) l = l.map (fun i => [i])
  | [] => rfl
  | a :: l => by simp [cutBy, List.replicate_succ, cut_range l]

theorem pick_range (as : List Ex) : ((List.range as.length).map (fun i => [i])).map (pick as) = as.map (fun a => [a]) := by
  rw [List.map_map]
  apply List.ext_getElem
  · simp
  · intro i h1 h2
    simp at h1 h2
    simp [pick, h2]

theorem formTable_args (env : MEnv) (m : Nat) (as : List Ex) (ha : ∀ a ∈ as, a ≠ .expr []) (h1 : 1 ≤ as.length) :
    ∀ xs : List String, formTable (matchF env (m + 1)) as (xs.map formP) = some (some (xs.map (fun _ => as.map (fun _ => true))))
  | [] => rfl
  | x :: xs => by
    have e : matchRow (matchF env (m + 1)) as (formP x).form = some (as.map (fun _ => true)) := by
      unfold matchRow
      refine mapO_some _ _ _ (fun a h => ?_)
      simp [formP, blank_any _ _ _ (ha a h)]
    simp only [List.map_cons, formTable, e, formTable_args env m as ha h1 xs]
    rw [if_neg]
    simp only [List.map_const', List.count_replicate_self, formP]
    omega

theorem seqMatch_args (env : MEnv) (m : Nat) (f : String) (xs : List String) (as : List Ex) (hl : xs.length = as.length) (hn : xs.Nodup)
    (ha : ∀ a ∈ as, a ≠ .expr []) (h1 : 1 ≤ as.length) :
    seqMatch env (matchF env (m + 1)) as (xs.map argP) false false f [] = some [bindAll [] xs as] := by
  have e1 : mapO (parseForm false f (env.dflt f)) (xs.map argP) = some (xs.map formP) := by
    rw [mapO_some _ (fun p => formP (match p with | .expr [_, .sym y, _] => y | _ => ""))]
    · rw [List.map_map]; rfl
    · intro p hp
      obtain ⟨x, -, rfl⟩ := List.mem_map.1 hp
      exact parseP f _ x
  have e2 : assignments as.length (xs.map formP) (xs.map (fun _ => as.map (fun _ => true))) false = some [(List.range as.length).map (fun i => [i])] := by
    unfold assignments
    rw [if_neg]
    · simp only [Bool.false_eq_true, if_false]
      rw [← hl, completions_args]
      have := cut_range (List.range xs.length)
      simp only [List.length_range] at this
      simp [this]
    · simp [formP]
  simp only [seqMatch, e1, formTable_args env m as ha h1, e2, bindO, mapO]
  rw [pick_range, amiRun_args env m f xs as [] hl hn (fun _ _ => rfl) ha (by simp)]
  simp

/-- Heads with a meaning of their own in a pattern. -/
def specialHeads : List String := ["System`Except", "System`Alternatives", "System`PatternTest", "System`Condition", "System`Optional", "System`HoldPattern",
  "System`Pattern", "System`Blank", "System`BlankSequence", "System`BlankNullSequence"]

/-- `f[x_, y_, ...]` matches `f[a, b, ...]` in one way. -/
theorem matchF_call (env : MEnv) (m : Nat) {f : String} (hs : f ∉ specialHeads) (ho : env.orderless f = false) (hfl : env.flat f = false)
    (xs : List String) (as : List Ex) (hl : xs.length = as.length) (hn : xs.Nodup) (ha : ∀ a ∈ as, a ≠ .expr []) (h1 : 1 ≤ as.length) :
    matchF env (m + 3) (.expr (.sym f :: as)) (.expr [S "HoldPattern", .expr (.sym f :: xs.map argP)]) [] = some ([some (bindAll [] xs as)], []) := by
  have hhold : matchF env (m + 3) (.expr (.sym f :: as)) (.expr [S "HoldPattern", .expr (.sym f :: xs.map argP)]) [] =
      matchF env (m + 2) (.expr (.sym f :: as)) (.expr (.sym f :: xs.map argP)) [] := rfl
  rw [hhold, matchF, if_neg (by simp)]
  simp only [specialHeads, List.mem_cons, List.not_mem_nil, or_false, not_or] at hs
  obtain ⟨s1, s2, s3, s4, s5, s6, s7, s8, s9, s10⟩ := hs
  have hsp : matchSpecial env (matchF env (m + 1)) (.expr (.sym f :: as)) (.expr (.sym f :: xs.map argP)) [] = .goOn [] := by
    simp [matchSpecial, s1, s2, s3, s4, s5, s6]
  rw [hsp]
  have hv : verbatimOp (.expr (.sym f :: as)) (.expr (.sym f :: xs.map argP)) = none := rfl
  have hb : blankKind (.expr (.sym f :: xs.map argP)) = .notBlank := by
    simp [blankKind, s7, blankArgs, s8, s9, s10]
  simp only [matchNormal, hv, Option.getD_none, hb, matchCompound, bne_self_eq_false, Bool.and_false, Bool.false_eq_true, if_false, matchParts, if_true,
    ho, hfl, Bool.false_and, Option.isSome_none]
  rw [seqMatch_args env m f xs as hl hn ha h1]
  rfl

/-- A definition `f[x_, y_, ...] := rhs` without condition, used on `f[a, b, ...]`. -/
theorem rulesReplace_call (env : MEnv) (locals : Ex → Option Ex) (m n : Nat) {f : String} (hs : f ∉ specialHeads) (ho : env.orderless f = false)
    (hfl : env.flat f = false) (xs : List String) (as : List Ex) (hl : xs.length = as.length) (hn : xs.Nodup) (ha : ∀ a ∈ as, a ≠ .expr [])
    (h1 : 1 ≤ as.length) (rhs res : Ex) (hres : replacePD rhs (some (bindAll [] xs as)) = res)
    (hc : condArgs locals res = none) (rs : List Ex) :
    rulesReplace env locals (m + 3) (n + 1) (.expr (.sym f :: as))
      (.expr [S "Rule", .expr [S "HoldPattern", .expr (.sym f :: xs.map argP)], rhs] :: rs) = some (some res) := by
  simp only [rulesReplace, ruleSides, replace, matchF_call env m hs ho hfl xs as hl hn ha h1, replaceLoop, hres, tryCond, hc]

end CallMatch
end Expreduce
