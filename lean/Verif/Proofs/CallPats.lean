import Verif.Proofs.CallMatch

/-! A left side `f[p, q, ...]` whose arguments are variables `x_` or integers. -/

namespace Expreduce
open Ex

/-- An argument of a left side: any value, under a name, or an integer. -/
inductive ArgPat where
  | any (x : String)
  | lit (c : Int)

/-- The argument as an expression. -/
def ArgPat.toEx : ArgPat → Ex
  | .any x => argP x
  | .lit c => .int c

/-- The value is of the required form: for an integer, it has its fingerprint. -/
def ArgPat.takes : ArgPat → Ex → Bool
  | .any _, _ => true
  | .lit _, .expr _ => false
  | .lit c, a => isSameQ a (.int c)

/-- All values are of the required form. -/
def agree : List ArgPat → List Ex → Bool
  | p :: ps, a :: as => p.takes a && agree ps as
  | _, _ => true

/-- The names are bound to the values. -/
def bindPats (pm : PM) : List ArgPat → List Ex → PM
  | .any x :: ps, a :: as => bindPats (pm.set x a) ps as
  | .lit _ :: ps, _ :: as => bindPats pm ps as
  | _, _ => pm

/-- The names. -/
def ArgPat.name? : ArgPat → Option String
  | .any x => some x
  | .lit _ => none

namespace CallMatch

theorem pair_if {α β : Type} (t : Bool) (x y : α) (z : β) : some (if t = true then (x, z) else (y, z)) = some (if t = true then x else y, z) := by
  cases t <;> rfl

theorem int_matches (env : MEnv) (m : Nat) (x : Ex) (hx : x ≠ .expr []) (c : Int) (pm : PM) :
    matchF env (m + 1) x (.int c) pm = some (if (ArgPat.lit c).takes x then [none] else [], pm) := by
  cases x with
  | expr l =>
    cases l with
    | nil => exact absurd rfl hx
    | cons h t => simp [matchF, matchSpecial, matchNormal, verbatimOp, blankKind, matchCompound, ArgPat.takes]
  | _ =>
    rw [matchF, if_neg (by simp)]
    simp only [matchSpecial, matchNormal, verbatimOp, Option.getD_none, blankKind, matchCompound, ArgPat.takes]
    exact pair_if _ _ _ _

/-- The parsed form of an argument. -/
def formA : ArgPat → ParsedForm
  | .any x => formP x
  | .lit c => { startI := 1, endI := 1, form := .int c, isBlank := false, isImpliedBs := false, isOptional := false, defaultExpr := none, patSym := none }

theorem parseA (f : String) (d : Option Ex) (p : ArgPat) : parseForm false f d p.toEx = some (formA p) := by
  cases p with
  | any x => exact parseP f d x
  | lit c => simp [parseForm, ArgPat.toEx, stripOptional, stripTest, stripPat, argsOf, parseBody, formA, hasHead]

theorem form_start (p : ArgPat) : (formA p).startI = 1 ∧ (formA p).endI = 1 := by cases p <;> exact ⟨rfl, rfl⟩

theorem amiRun_pats (env : MEnv) (m : Nat) (f : String) : ∀ (ps : List ArgPat) (as : List Ex) (pm : PM), ps.length = as.length → (ps.filterMap ArgPat.name?).Nodup →
    (∀ x ∈ ps.filterMap ArgPat.name?, pm.get x = none) → (∀ a ∈ as, a ≠ .expr []) → (pm.map Prod.fst).Nodup →
    amiRun env (matchF env (m + 1)) f (ps.map formA) (as.map (fun a => [a])) pm = some (if agree ps as then [bindPats pm ps as] else [])
  | [], [], pm, _, _, _, _, _ => rfl
  | .any x :: ps, a :: as, pm, hl, hn, hx, ha, hp => by
    have e1 : amiElems (matchF env (m + 1)) (formP x).form [a] pm = some [pm] := by
      simp [amiElems, formP, blank_any _ _ _ (ha a (by simp)), bindO, mapO, PM.updateO, update_self pm hp]
    have e2 : defineSequence env f (formP x) [a] pm = some (pm.set x a) := by
      simp [defineSequence, formP, hx x (by simp [ArgPat.name?]), attemptDefine]
    simp only [List.map_cons, formA, amiRun, e1, bindO, mapO, e2]
    have hn' : (x :: ps.filterMap ArgPat.name?).Nodup := by simpa [ArgPat.name?] using hn
    rw [amiRun_pats env m f ps as (pm.set x a) (by simpa using hl) (List.nodup_cons.1 hn').2 ?_ (fun b hb => ha b (by simp [hb])) (nodup_set hp)]
    · rw [show agree (.any x :: ps) (a :: as) = agree ps as by simp [agree, ArgPat.takes], bindPats]
      simp
    · intro y hy
      rw [get_set_ne (by rintro rfl; exact (List.nodup_cons.1 hn').1 hy)]
      exact hx y (by simp [ArgPat.name?] at hy ⊢; exact .inr hy)
  | .lit c :: ps, a :: as, pm, hl, hn, hx, ha, hp => by
    have e1 : amiElems (matchF env (m + 1)) (.int c) [a] pm = some (if (ArgPat.lit c).takes a then [pm] else []) := by
      by_cases h : (ArgPat.lit c).takes a = true <;> simp [amiElems, int_matches _ _ _ (ha a (by simp)), bindO, mapO, PM.updateO, h]
    have hn' : (ps.filterMap ArgPat.name?).Nodup := hn
    have ih := amiRun_pats env m f ps as pm (by simpa using hl) hn' (fun y hy => hx y hy) (fun b hb => ha b (by simp [hb])) hp
    simp only [List.map_cons, formA, amiRun, e1]
    by_cases h : (ArgPat.lit c).takes a = true
    · simp [h, bindO, mapO, defineSequence, ih, agree, bindPats]
    · simp [h, bindO, mapO, agree]

theorem completions_pats : ∀ ps : List ArgPat, completions (ps.map formA) ps.length = [ps.map (fun _ => 1)]
  | [] => rfl
  | [x] => by simp [completions, form_start]
  | x :: y :: xs => by
    have ih := completions_pats (y :: xs)
    have ht : tries (formA x) ((x :: y :: xs).length : Nat) = [1] := by
      simp only [tries, form_start, intRange, List.length_cons]
      have : (formA x).isImpliedBs = false := by cases x <;> rfl
      rw [show (min (1 : Int) ((xs.length + 1 + 1 : Nat) : Int) + 1 - 1).toNat = 1 by omega]
      first | rfl | simp [this]
    simp only [List.map_cons] at ih ⊢
    rw [completions, ht, List.flatMap_cons, List.flatMap_nil, List.append_nil]
    have : (((x :: y :: xs).length : Nat) : Int) - 1 = ((y :: xs).length : Nat) := by simp
    rw [this, ih]
    rfl

theorem matchRow_pats (env : MEnv) (m : Nat) (as : List Ex) (ha : ∀ a ∈ as, a ≠ .expr []) (p : ArgPat) :
    matchRow (matchF env (m + 1)) as (formA p).form = some (as.map p.takes) := by
  unfold matchRow
  refine mapO_some _ _ _ (fun a h => ?_)
  cases p with
  | any x => simp [formA, formP, blank_any _ _ _ (ha a h), ArgPat.takes]
  | lit c => by_cases hc : (ArgPat.lit c).takes a = true <;> simp [formA, int_matches _ _ _ (ha a h), hc]

theorem formTable_pats (env : MEnv) (m : Nat) (as : List Ex) (ha : ∀ a ∈ as, a ≠ .expr []) : ∀ ps : List ArgPat,
    formTable (matchF env (m + 1)) as (ps.map formA) = some (if ∀ p ∈ ps, ∃ a ∈ as, p.takes a = true then some (ps.map (fun p => as.map p.takes)) else none)
  | [] => by simp [formTable]
  | p :: ps => by
    simp only [List.map_cons, formTable, matchRow_pats env m as ha p, formTable_pats env m as ha ps, form_start]
    by_cases h : ∃ a ∈ as, p.takes a = true
    · have : ¬ ((List.count true (as.map p.takes) : Nat) : Int) < 1 := by
        obtain ⟨a, h1, h2⟩ := h
        have : 0 < List.count true (as.map p.takes) := List.count_pos_iff.2 (List.mem_map.2 ⟨a, h1, h2⟩)
        omega
      rw [if_neg this]
      by_cases h' : ∀ p ∈ ps, ∃ a ∈ as, p.takes a = true
      · rw [if_pos h', if_pos (by intro q hq; rcases List.mem_cons.1 hq with rfl | hq; exacts [h, h' q hq])]
      · rw [if_neg h', if_neg (fun hh => h' (fun q hq => hh q (by simp [hq])))]
    · have : ((List.count true (as.map p.takes) : Nat) : Int) < 1 := by
        have : List.count true (as.map p.takes) = 0 := by
          rw [List.count_eq_zero]
          intro hm
          obtain ⟨a, h1, h2⟩ := List.mem_map.1 hm
          exact h ⟨a, h1, h2⟩
        omega
      rw [if_pos this, if_neg (fun hh => h (hh p (by simp)))]

theorem agree_takes : ∀ (ps : List ArgPat) (as : List Ex), ps.length = as.length → agree ps as = true → ∀ p ∈ ps, ∃ a ∈ as, p.takes a = true
  | [], _, _, _ => by simp
  | p :: ps, a :: as, hl, h => by
    have h : p.takes a = true ∧ agree ps as = true := by simpa [agree] using h
    intro q hq
    rcases List.mem_cons.1 hq with rfl | hq
    · exact ⟨a, by simp, h.1⟩
    · obtain ⟨b, h1, h2⟩ := agree_takes ps as (by simpa using hl) h.2 q hq
      exact ⟨b, by simp [h1], h2⟩

theorem seqMatch_pats (env : MEnv) (m : Nat) (f : String) (ps : List ArgPat) (as : List Ex) (hl : ps.length = as.length) (hn : (ps.filterMap ArgPat.name?).Nodup)
    (ha : ∀ a ∈ as, a ≠ .expr []) :
    seqMatch env (matchF env (m + 1)) as (ps.map ArgPat.toEx) false false f [] = some (if agree ps as then [bindPats [] ps as] else []) := by
  have e1 : mapO (parseForm false f (env.dflt f)) (ps.map ArgPat.toEx) = some (ps.map formA) := by
    clear hl hn
    induction ps with
    | nil => rfl
    | cons p ps ih => simp only [List.map_cons, mapO, parseA, ih]
  simp only [seqMatch, e1, formTable_pats env m as ha]
  by_cases h : ∀ p ∈ ps, ∃ a ∈ as, p.takes a = true
  · rw [if_pos h]
    have e2 : assignments as.length (ps.map formA) (ps.map (fun p => as.map p.takes)) false = some [(List.range as.length).map (fun i => [i])] := by
      unfold assignments
      rw [if_neg]
      · simp only [Bool.false_eq_true, if_false]
        rw [← hl, completions_pats]
        have := cut_range (List.range ps.length)
        simp only [List.length_range] at this
        simp [this]
      · simp [form_start]
    simp only [e2, bindO, mapO]
    rw [pick_range, amiRun_pats env m f ps as [] hl hn (fun _ _ => rfl) ha (by simp)]
    simp
  · rw [if_neg h]
    have : agree ps as = false := by
      cases ha' : agree ps as with
      | false => rfl
      | true => exact absurd (agree_takes ps as hl ha') h
    simp [this]

/-- `f[p, q, ...]` matches `f[a, b, ...]` if the integers among the arguments are there, and then in one way. -/
theorem matchF_pats (env : MEnv) (m : Nat) {f : String} (hs : f ∉ specialHeads) (ho : env.orderless f = false) (hfl : env.flat f = false)
    (ps : List ArgPat) (as : List Ex) (hl : ps.length = as.length) (hn : (ps.filterMap ArgPat.name?).Nodup) (ha : ∀ a ∈ as, a ≠ .expr []) :
    matchF env (m + 3) (.expr (.sym f :: as)) (.expr [S "HoldPattern", .expr (.sym f :: ps.map ArgPat.toEx)]) [] =
      some (if agree ps as then [some (bindPats [] ps as)] else [], []) := by
  have hhold : matchF env (m + 3) (.expr (.sym f :: as)) (.expr [S "HoldPattern", .expr (.sym f :: ps.map ArgPat.toEx)]) [] =
      matchF env (m + 2) (.expr (.sym f :: as)) (.expr (.sym f :: ps.map ArgPat.toEx)) [] := rfl
  rw [hhold, matchF, if_neg (by simp)]
  simp only [specialHeads, List.mem_cons, List.not_mem_nil, or_false, not_or] at hs
  obtain ⟨s1, s2, s3, s4, s5, s6, s7, s8, s9, s10⟩ := hs
  have hsp : matchSpecial env (matchF env (m + 1)) (.expr (.sym f :: as)) (.expr (.sym f :: ps.map ArgPat.toEx)) [] = .goOn [] := by
    simp [matchSpecial, s1, s2, s3, s4, s5, s6]
  rw [hsp]
  have hv : verbatimOp (.expr (.sym f :: as)) (.expr (.sym f :: ps.map ArgPat.toEx)) = none := rfl
  have hb : blankKind (.expr (.sym f :: ps.map ArgPat.toEx)) = .notBlank := by
    simp [blankKind, s7, blankArgs, s8, s9, s10]
  simp only [matchNormal, hv, Option.getD_none, hb, matchCompound, bne_self_eq_false, Bool.and_false, Bool.false_eq_true, if_false, matchParts, if_true,
    ho, hfl, Bool.false_and, Option.isSome_none]
  rw [seqMatch_pats env m f ps as hl hn ha]
  cases agree ps as <;> rfl

end CallMatch
end Expreduce
