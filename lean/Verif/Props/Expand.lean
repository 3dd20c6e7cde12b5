import Verif.Proofs.ExpandRules
import Verif.Props.Solve

/-! Property C114: `Expand`. -/

namespace Expreduce
open Ex Shipped

/-- **C114, the exponents.** For a power `n ≥ 1` of a sum with `m ≥ 1` addends the list of exponents contains every list of `m` numbers with
the sum `n` exactly once. -/
theorem C114_exponents (n m : Nat) (hn : 1 ≤ n) (hm : 1 ≤ m) : (possibleExponents n m).Nodup ∧ ∀ q, q ∈ possibleExponents n m ↔ q.length = m ∧ q.sum = n :=
  exponents_spec hn hm

example : possibleExponents 2 3 = [[2, 0, 0], [0, 2, 0], [0, 0, 2], [1, 1, 0], [1, 0, 1], [0, 1, 1]] := by decide +kernel

/-- **C114, the expansion of a power.** If the addends, none of which is the number 0, have values, the expansion of the `n`-th power of the sum
has the value `(v1 + v2 + ...)^n`. -/
theorem C114_power (V : Interp) (as : List Ex) (vs : List ℂ) (n : Nat) (hn : 1 ≤ n) (hne : as ≠ []) (h0 : Ex.int 0 ∉ as) (h : List.Forall₂ V.Denotes as vs) :
    V.Denotes (genExpand as (possibleExponents n as.length)) (vs.sum ^ n) := den_genExpand h h0 hne hn

/-- With an addend 0 the expansion would be `Indeterminate`. -/
theorem C114_zero : genExpand [.sym "Global`x", .int 0] (possibleExponents 1 2) =
    add [mul [.int 1, mul [.sym "Global`x", S "Indeterminate"]], mul [.int 1, mul [.int 1, .int 0]]] := by decide +kernel

/-- The value of `e'` is that of `e`, if `e` has one. -/
def KeepsValue (V : Interp) (e e' : Ex) : Prop := ∀ v, V.Denotes e v → V.Denotes e' v

theorem keepsValue_of {V : Interp} {e e' : Ex} (h : List.Forall₂ Refines (V.meaning.argVals e) (V.meaning.argVals e')) : KeepsValue V e e' := by
  intro v hv
  unfold Interp.Denotes at hv ⊢
  rw [hv] at h
  generalize V.meaning.argVals e' = l at h
  cases h with
  | cons h t =>
    cases t
    rw [h v rfl]

/-- **C114, one rule.** Each of the two rules, applied everywhere in the expression (directly, or to some of the factors of a product), keeps
the value. -/
theorem C114_rule_partial (env : MEnv) [env.Exact] (hE : ArithEnv env []) (m : Nat) (ev : Ex → Ex) (V : Interp) (e e' : Ex) (hS : ExpandSetup env m ev e)
    (rule : Ex × Ex) (hr : rule ∈ [expandPower, expandProduct]) (h : replaceAll env m "" rule.1 rule.2 e = some e') : KeepsValue V e (finish ev e') :=
  keepsValue_of (expand_pass hE hS hr h)

/-- Only one of the two rules changes the expression: there is no power of a sum, or no product with a sum in what the first rule leaves. -/
def OnlyOneRule (env : MEnv) (m : Nat) (e : Ex) : Prop :=
  replaceAll env m "" expandPower.1 expandPower.2 e = some e ∨
    ∃ e1, replaceAll env m "" expandPower.1 expandPower.2 e = some e1 ∧ replaceAll env m "" expandProduct.1 expandProduct.2 e1 = some e1

theorem expandRound_eq {env : MEnv} {m : Nat} {ev : Ex → Ex} {e r : Ex} (h : expandRound env m ev e = some r) :
    ∃ e1 e2, replaceAll env m "" expandPower.1 expandPower.2 e = some e1 ∧ replaceAll env m "" expandProduct.1 expandProduct.2 e1 = some e2 ∧ r = finish ev e2 := by
  unfold expandRound at h
  rw [Option.map_eq_some_iff] at h
  obtain ⟨e2, h, rfl⟩ := h
  have hs : ∀ p : Ex × Ex, ruleSides (.expr [S "RuleDelayed", p.1, p.2]) = some p := by
    intro p; simp [ruleSides, S]
  simp only [rulesReplaceAll, hs] at h
  cases h1 : replaceAll env m "" expandPower.1 expandPower.2 e with
  | none => rw [h1] at h; simp at h
  | some e1 =>
    rw [h1] at h
    simp only at h
    cases h2 : replaceAll env m "" expandProduct.1 expandProduct.2 e1 with
    | none => rw [h2] at h; simp at h
    | some e2' =>
      rw [h2] at h
      simp only [Option.some.injEq] at h
      subst h
      exact ⟨e1, e2', rfl, h2, rfl⟩

/-- **C114, one round.** A round in which only one of the rules changes something keeps the value. (For other rounds see `C114_wrong`.) -/
theorem C114_round_partial (env : MEnv) [env.Exact] (hE : ArithEnv env []) (m : Nat) (ev : Ex → Ex) (V : Interp) (e r : Ex) (hS : ExpandSetup env m ev e)
    (h1 : OnlyOneRule env m e) (h : expandRound env m ev e = some r) : KeepsValue V e r := by
  obtain ⟨e1, e2, h2, h3, rfl⟩ := expandRound_eq h
  rcases h1 with h1 | ⟨e1', h1, h1'⟩
  · rw [h1] at h2
    cases h2
    exact C114_rule_partial env hE m ev V e e2 hS expandProduct (by simp) h3
  · rw [h1] at h2
    cases h2
    rw [h1'] at h3
    cases h3
    exact C114_rule_partial env hE m ev V e _ hS expandPower (by simp) h1

/-- **C114, `Expand`.** If the evaluator keeps values, and in every expression that `Expand` goes through only one of the rules changes
something, the result has the value of the argument. -/
theorem C114_expand_partial (env : MEnv) [env.Exact] (hE : ArithEnv env []) (m : Nat) (ev : Ex → Ex) (V : Interp) (hev : ∀ a, KeepsValue V a (ev a))
    (Q : Ex → Prop) (hQ : ∀ a, Q a → ExpandSetup env m ev a ∧ OnlyOneRule env m a) (hnext : ∀ a b, Q a → expandRound env m ev a = some b → Q (ev b)) :
    ∀ (k : Nat) (e r : Ex), Q e → expandRun env m ev k e = some r → KeepsValue V e r
  | 0, e, r, _, h => by simp [expandRun, replaceRepeated] at h
  | k + 1, e, r, he, h => by
    unfold expandRun at h
    rw [replaceRepeated] at h
    cases h1 : expandRound env m ev e with
    | none => simp [h1] at h
    | some b =>
      simp only [h1, Option.map_some] at h
      obtain ⟨h2, h3⟩ := hQ e he
      have hb : KeepsValue V e (ev b) := fun v hv => hev b v (C114_round_partial env hE m ev V e b h2 h3 h1 v hv)
      split at h
      · cases h; exact hb
      · exact fun v hv => C114_expand_partial env hE m ev V hev Q hQ hnext k (ev b) r (hnext e b he h1) h v (hb v hv)

/-! ### Examples -/

/-- The arithmetic functions, and which integers are positive. -/
def expandEnv : MEnv := { solveEnv with
  isTrue := fun e => match e with
    | .expr [.sym s, .int n] => s == "System`Positive" && decide (0 < n)
    | _ => false }

instance : expandEnv.Exact where
  exact := fun s d h => MEnv.Exact.exact (env := solveEnv) s d h

theorem expandEnv_ok : ArithEnv expandEnv [] where
  plus := by decide
  times := by decide
  power := by decide
  plain := by simp

theorem clash_isMatchQ {env : MEnv} {heads : List String} {m : Nat} {p e : Ex} (h : clashFreeAll env heads m p e = true) :
    ∀ q, isMatchQ env m e p [] = some (true, q) → ClashFree env heads p e (bindingsOf q) := by
  intro q hq
  unfold isMatchQ at hq
  split at hq
  · simp at hq
  · simp at hq
  · rename_i r0 tl pm' hm
    simp only [Option.some.injEq, Prod.mk.injEq, true_and] at hq
    subst hq
    exact clashFreeAll_sound h _ _ hm _ (by simp)

mutual
/-- Decides whether an expression is one that `Expand` is modelled for. -/
def expandable : Ex → Bool
  | .expr (.sym s :: as) => !expandPrograms.contains s && s != "System`Sequence" && s != "System`Integer" && expandableL as
  | .sym _ => true
  | .int _ => true
  | _ => false
/-- The same for a list. -/
def expandableL : List Ex → Bool
  | [] => true
  | a :: as => expandable a && expandableL as
end

mutual
theorem expandable_frag : ∀ {e : Ex}, expandable e = true → Frag ExpandHead e
  | .expr (.sym s :: as), h => by
    simp only [expandable, Bool.and_eq_true, Bool.not_eq_true', bne_iff_ne, ne_eq] at h
    exact .app ⟨by simpa using h.1.1.1, h.1.1.2, h.1.2⟩ (expandableL_frag h.2)
  | .sym s, _ => .sym s
  | .int n, _ => .int n
theorem expandableL_frag : ∀ {es : List Ex}, expandableL es = true → ∀ e ∈ es, Frag ExpandHead e
  | [], _, e, he => by cases he
  | a :: as, h, e, he => by
    simp only [expandableL, Bool.and_eq_true] at h
    rcases List.mem_cons.1 he with h' | he
    · rw [h']; exact expandable_frag h.1
    · exact expandableL_frag h.2 e he
end

/-- Is a piece of the expression a sum without addends or with the addend 0? -/
def badSum : Ex → Bool
  | .expr (.sym s :: as) => s == "System`Plus" && (as.isEmpty || as.contains (.int 0))
  | _ => false

theorem expandSetup_of {ev : Ex → Ex} {e : Ex} (h1 : expandable e = true) (h2 : ∀ a ∈ pieces e, ev a = a) (h3 : (pieces e).any badSum = false)
    (h4 : (pieces e).all (fun a => expandPatterns.all (fun p => clashFreeAll expandEnv polyHeads 60 p a)) = true) : ExpandSetup expandEnv 60 ev e where
  frag := expandable_frag h1
  evaluated := h2
  sums := by
    intro as has
    have : badSum (add as) = false := by
      rw [List.any_eq_false] at h3
      simpa using h3 _ has
    simp only [badSum, add, call, S, beq_self_eq_true, Bool.true_and, Bool.or_eq_false_iff, show ("System`" ++ "Plus" == "System`Plus") = true from rfl] at this
    exact ⟨by rintro rfl; simp at this, by simpa using this.2⟩
  positive := by
    intro n h
    simpa [expandEnv, call, S] using h
  clash := by
    intro a ha p hp q hq
    rw [List.all_eq_true] at h4
    have := h4 a ha
    rw [List.all_eq_true] at this
    exact clash_isMatchQ (this p hp) q hq

/-- `x`, `y`, `c` -/
def ex : Ex := .sym "Global`x"
def ey : Ex := .sym "Global`y"
def ec : Ex := .sym "Global`c"

/-- `(x + y)^2` -/
def square : Ex := pow (add [ex, ey]) (.int 2)
/-- `c x (3 + y)` -/
def threeFactors : Ex := mul [ec, ex, add [.int 3, ey]]

/-- The hypotheses are met by `(x + y)^2` ... -/
example : ExpandSetup expandEnv 60 id square ∧ OnlyOneRule expandEnv 60 square ∧
    expandRound expandEnv 60 id square = some (add [mul [.int 1, mul [pow ex (.int 2), .int 1]], mul [.int 1, mul [.int 1, pow ey (.int 2)]], mul [.int 2, mul [ex, ey]]]) := by
  refine ⟨expandSetup_of (by decide +kernel) (fun _ _ => rfl) (by decide +kernel) (by decide +kernel), .inr ?_, by decide +kernel⟩
  exact ⟨_, rfl, by decide +kernel⟩

/-- ... and by `c x (3 + y)`. -/
example : ExpandSetup expandEnv 60 id threeFactors ∧ OnlyOneRule expandEnv 60 threeFactors ∧
    expandRound expandEnv 60 id threeFactors = some (add [mul [mul [ec, ex], .int 3], mul [mul [ec, ex], ey]]) := by
  refine ⟨expandSetup_of (by decide +kernel) (fun _ _ => rfl) (by decide +kernel) (by decide +kernel), .inl ?_, ?_⟩ <;> decide +kernel

/-! ### A wrong expansion -/

/-- `(c x + c (y - x))^2` -/
def nested : Ex := pow (add [mul [ec, ex], mul [ec, add [mul [.int (-1), ex], ey]]]) (.int 2)

/-- The sum after the second rule: `c x + (c (-x) + c y)`. -/
def innerSum : Ex := add [mul [ec, ex], add [mul [ec, mul [.int (-1), ex]], mul [ec, ey]]]

/-- An evaluator that computes this sum, `c y`, and does nothing else. -/
def evNested (a : Ex) : Ex := if a = innerSum then mul [ec, ey] else a

/-- The values 1 of `c` and `x`, 2 of `y`. -/
def vNested : Interp := { sym := fun s => if s = "Global`y" then some 2 else some 1, fn := fun _ _ => none }

theorem den_ec : vNested.Denotes ec 1 := by simp [Interp.Denotes, ec, vNested, Meaning.argVals, Meaning.val, Interp.meaning, atomValue, hasHead, noNumber]
theorem den_ex : vNested.Denotes ex 1 := by simp [Interp.Denotes, ex, vNested, Meaning.argVals, Meaning.val, Interp.meaning, atomValue, hasHead, noNumber]
theorem den_ey : vNested.Denotes ey 2 := by simp [Interp.Denotes, ey, vNested, Meaning.argVals, Meaning.val, Interp.meaning, atomValue, hasHead, noNumber]

/-- **C114, a wrong result.** `Expand` is wrong for `(c x + c (y - x))^2`: the second rule acts on the sum inside the call of `genExpand`
that the first rule has left; that sum then evaluates to the product `c y`, whose factors are taken for the addends. The result is
`c^2 + 2 c y + y^2` and not `c^2 y^2`, although the evaluator keeps values. With `c = x = 1`, `y = 2` it is 9 and not 4. -/
theorem C114_wrong : (∀ a, KeepsValue vNested a (evNested a)) ∧ vNested.Denotes nested 4 ∧
    ∃ r, expandRound expandEnv 60 evNested nested = some r ∧ r = add [mul [.int 1, mul [pow ec (.int 2), .int 1]], mul [.int 1, mul [.int 1, pow ey (.int 2)]],
      mul [.int 2, mul [ec, ey]]] ∧ vNested.Denotes r 9 := by
  refine ⟨?_, ?_, _, by decide +kernel, rfl, ?_⟩
  · intro a v hv
    unfold evNested
    split
    · rename_i h
      subst h
      have h1 : vNested.Denotes innerSum 2 :=
        den_eq (den_add2 (den_mul2 den_ec den_ex) (den_add2 (den_mul2 den_ec (den_mul2 (den_int (-1)) den_ex)) (den_mul2 den_ec den_ey))) (by norm_num)
      rw [den_unique hv h1]
      exact den_eq (den_mul2 den_ec den_ey) (by norm_num)
    · exact hv
  · refine den_pow (x := 2) (y := 2) (den_eq (den_add2 (den_mul2 den_ec den_ex) (den_mul2 den_ec (den_add2 (den_mul2 (den_int (-1)) den_ex) den_ey))) (by norm_num)) (den_nat 2) ?_
    have := powValue_natCast (z := 2) (n := 2) (by decide)
    norm_num at this ⊢
    exact this
  · have h2 : ∀ {a : Ex} {v : ℂ}, vNested.Denotes a v → vNested.Denotes (pow a (.int 2)) (v ^ 2) := fun h => den_sq h
    exact den_eq (den_add3 (den_mul2 den_1 (den_mul2 (h2 den_ec) den_1)) (den_mul2 den_1 (den_mul2 den_1 (h2 den_ey))) (den_mul2 (den_nat 2) (den_mul2 den_ec den_ey))) (by norm_num)

end Expreduce
