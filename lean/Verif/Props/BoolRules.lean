import Verif.Proofs.BoolPass
import Verif.Props.Expand

/-! Property C116: `booleanSimplify`, the first step of `Simplify`. -/

namespace Expreduce
open Ex Shipped BoolRules

/-- **C116, one rule.** Each of the 18 rules, applied everywhere in an expression (directly, or to some of the arguments of a longer `And` or
`Or`), keeps the value. -/
theorem C116_rule_partial {W : Type} (V : TruthInterp W) (env : MEnv) [env.Exact] (hE : BoolEnv env) (m : Nat) (r : Ex × Ex) (hr : r ∈ boolRules) (e e' : Ex)
    (hS : BoolSetup env m r e) (h : replaceAll env m "" r.1 r.2 e = some e') : KeepsTruth V e e' :=
  keepsTruth_of (bool_pass hE hr hS h)

theorem bool_stages {W : Type} {V : TruthInterp W} {env : MEnv} [env.Exact] (hE : BoolEnv env) {m : Nat} : ∀ (rs : List (Ex × Ex)) (e r : Ex), (∀ q ∈ rs, q ∈ boolRules) →
    BoolStages env m rs e → rulesReplaceAll env m (rs.map (fun r => .expr [S "RuleDelayed", r.1, r.2])) e = some r → KeepsTruth V e r
  | [], e, r, _, _, h => by
    simp only [List.map_nil, rulesReplaceAll, Option.some.injEq] at h
    subst h
    exact fun _ h => h
  | q :: rs, e, r, hq, hst, h => by
    have hs : ruleSides (.expr [S "RuleDelayed", q.1, q.2]) = some q := by simp [ruleSides, S]
    simp only [List.map_cons, rulesReplaceAll, hs] at h
    cases h1 : replaceAll env m "" q.1 q.2 e with
    | none => rw [h1] at h; simp at h
    | some e1 =>
      rw [h1] at h
      simp only at h
      obtain ⟨h2, h3⟩ := hst e1 h1
      have hk : KeepsTruth V e e1 := by
        rcases h2 with rfl | h2
        · exact fun _ h => h
        · exact C116_rule_partial V env hE m q (hq q (by simp)) e e1 h2 h1
      have := bool_stages (V := V) hE rs e1 r (fun q h => hq q (by simp [h])) h3 h
      exact fun v hv => this v (hk v hv)

/-- **C116, one round.** The 18 rules, applied one after the other, keep the value. -/
theorem C116_round_partial {W : Type} (V : TruthInterp W) (env : MEnv) [env.Exact] (hE : BoolEnv env) (m : Nat) (e r : Ex) (hS : BoolStages env m boolRules e)
    (h : boolRound env m e = some r) : KeepsTruth V e r :=
  bool_stages hE boolRules e r (fun _ h => h) hS h

/-- **C116, `booleanSimplify`.** If the evaluator keeps values, the result has the value of the argument. -/
theorem C116_simplify_partial {W : Type} (V : TruthInterp W) (env : MEnv) [env.Exact] (hE : BoolEnv env) (m : Nat) (ev : Ex → Ex) (hev : ∀ a, KeepsTruth V a (ev a))
    (Q : Ex → Prop) (hQ : ∀ a, Q a → BoolStages env m boolRules a) (hnext : ∀ a b, Q a → boolRound env m a = some b → Q (ev b)) :
    ∀ (k : Nat) (e r : Ex), Q e → boolRun env m ev k e = some r → KeepsTruth V e r
  | 0, e, r, _, h => by simp [boolRun, replaceRepeated] at h
  | k + 1, e, r, he, h => by
    unfold boolRun at h
    rw [replaceRepeated] at h
    cases h1 : boolRound env m e with
    | none => simp [h1] at h
    | some b =>
      simp only [h1, Option.map_some] at h
      have hb : KeepsTruth V e (ev b) := fun v hv => hev b v (C116_round_partial V env hE m e b (hQ e he) h1 v hv)
      split at h
      · cases h; exact hb
      · exact fun v hv => C116_simplify_partial V env hE m ev hev Q hQ hnext k (ev b) r (hnext e b he h1) h v (hb v hv)

/-! ### Examples -/

/-- `And` and `Or` with their attributes. -/
def boolEnv : MEnv := { solveEnv with
  flat := fun s => s == "System`And" || s == "System`Or"
  oneIdentity := fun s => s == "System`And" || s == "System`Or"
  orderless := fun _ => false
  dflt := fun _ => none }

instance : boolEnv.Exact where
  exact := fun s d h => by simp [boolEnv] at h

theorem boolEnv_ok : BoolEnv boolEnv where
  flat := by decide
  not := by decide
  plain := by decide

mutual
/-- Decides whether an expression is one that the rules are modelled for. -/
def boolOk : Ex → Bool
  | .expr (.sym s :: as) => s != "System`Sequence" && boolOkL as
  | .sym _ => true
  | .int _ => true
  | _ => false
/-- The same for a list. -/
def boolOkL : List Ex → Bool
  | [] => true
  | a :: as => boolOk a && boolOkL as
end

mutual
theorem boolOk_frag : ∀ {e : Ex}, boolOk e = true → Frag BoolHead e
  | .expr (.sym s :: as), h => by
    simp only [boolOk, Bool.and_eq_true, bne_iff_ne, ne_eq] at h
    exact .app h.1 (boolOkL_frag h.2)
  | .sym s, _ => .sym s
  | .int n, _ => .int n
theorem boolOkL_frag : ∀ {es : List Ex}, boolOkL es = true → ∀ e ∈ es, Frag BoolHead e
  | [], _, e, he => by cases he
  | a :: as, h, e, he => by
    simp only [boolOkL, Bool.and_eq_true] at h
    rcases List.mem_cons.1 he with h' | he
    · rw [h']; exact boolOk_frag h.1
    · exact boolOkL_frag h.2 e he
end

theorem boolSetup_of {r : Ex × Ex} {e : Ex} (h1 : boolOk e = true) (h2 : (pieces e).all (fun a => (r.1 :: looseOf r.1).all (fun p => clashFreeAll boolEnv boolHeads 60 p a)) = true) :
    BoolSetup boolEnv 60 r e where
  frag := boolOk_frag h1
  clash := by
    intro a ha p hp q hq
    rw [List.all_eq_true] at h2
    have := h2 a ha
    rw [List.all_eq_true] at this
    exact clash_isMatchQ (this p hp) q hq

/-- Decides `BoolStages`. -/
def stagesB : List (Ex × Ex) → Ex → Bool
  | [], _ => true
  | r :: rs, e => match replaceAll boolEnv 60 "" r.1 r.2 e with
    | none => true
    | some e' => (decide (e' = e) || (boolOk e && (pieces e).all (fun a => (r.1 :: looseOf r.1).all (fun p => clashFreeAll boolEnv boolHeads 60 p a)))) && stagesB rs e'

theorem stagesB_sound : ∀ {rs : List (Ex × Ex)} {e : Ex}, stagesB rs e = true → BoolStages boolEnv 60 rs e
  | [], _, _ => trivial
  | r :: rs, e, h => by
    intro e' he
    rw [stagesB, he] at h
    simp only [Bool.and_eq_true, Bool.or_eq_true, decide_eq_true_eq] at h
    exact ⟨h.1.imp id (fun g => boolSetup_of g.1 g.2), stagesB_sound h.2⟩

/-- `p`, `q`, `r` -/
def bp : Ex := .sym "Global`p"
def bq : Ex := .sym "Global`q"
def br : Ex := .sym "Global`r"

/-- `Sequence[]`, what is left of a `___` that took nothing. -/
def emptySeq : Ex := .expr [S "Sequence"]

/-- `p || (q && !p) || r` -/
def boolExample : Ex := orOf [bp, andOf [bq, notOf bp], br]

/-- The rule for `a || (... && !a && ...)` applies to it, and the hypotheses hold. -/
example : boolRound boolEnv 60 boolExample = some (orOf [bp, emptySeq, emptySeq, andOf [bq, emptySeq], br]) := by decide +kernel
example : BoolStages boolEnv 60 boolRules boolExample := stagesB_sound (by decide +kernel)

/-- In `r || !p || !q` the first rule is applied to some of the arguments of `Or`. -/
def boolExample2 : Ex := orOf [br, notOf bp, notOf bq]
example : boolRound boolEnv 60 boolExample2 = some (orOf [br, notOf (andOf [bp, bq]), emptySeq]) := by decide +kernel
example : BoolStages boolEnv 60 boolRules boolExample2 := stagesB_sound (by decide +kernel)

/-- The values are those of the usual truth tables. -/
example (V : TruthInterp Unit) (a b c : Bool) (ha : V.sym "Global`p" = .bool a) (hb : V.sym "Global`q" = .bool b) (hc : V.sym "Global`r" = .bool c) :
    V.Denotes boolExample (.bool (a || ((b && !a) || c))) := by
  constructor
  · simp [boolExample, orOf, andOf, notOf, call, S, bp, bq, br, hasHead, Meaning.argVals, Meaning.vals, Meaning.val, TruthInterp.meaning, TruthInterp.opValue,
      TruthInterp.atomValue, ha, hb, hc, Truth.and2, Truth.or2, Truth.not1]
  · simp

/-- **C116, a missing blank.** The second rule is meant for any three negations, but because its third variable has no blank it does not apply
to `!p || !q || !r`, only to `!p || !q || !z` with its own symbol `z`. -/
theorem C116_literal : isMatchQ boolEnv 60 (orOf [notOf bp, notOf bq, notOf br]) deMorgan3.1 [] = some (false, some []) ∧
    isMatchQ boolEnv 60 (orOf [notOf bp, notOf bq, notOf (var "z")]) deMorgan3.1 [] = some (true, some [("Private`y", bq), ("Private`x", bp)]) := by
  constructor <;> decide +kernel

/-- `(q || q || r) && p && (p || r)` -/
def boolWrong : Ex := andOf [orOf [bq, bq, br], bp, orOf [bp, br]]

/-- `p` is true, `q` and `r` are false. -/
def vWrong : TruthInterp Unit := { sym := fun s => .bool (s == "Global`p"), atom := fun _ => .none, fn := fun _ _ => .none }

/-- **C116, a wrong result.** Several rules in one round can give a wrong result: a `___` that took nothing leaves a `Sequence[]` in the
expression, which is removed only by the evaluation after the round, and the later rules take it for an argument. In
`(q || q || r) && p && (p || r)` one rule changes `q || q || r`, another `p && (p || r)`, and then `Sequence[]` occurs both in the disjunction
and beside it; so the disjunction is absorbed and only `p` is left. -/
theorem C116_wrong : ∃ r, boolRound boolEnv 60 boolWrong = some r ∧ r = andOf [emptySeq, emptySeq, bp, emptySeq] ∧ vWrong.Denotes boolWrong (.bool false) ∧ vWrong.Denotes r (.bool true) := by
  refine ⟨_, by decide +kernel, rfl, ⟨?_, by simp⟩, ⟨?_, by simp⟩⟩
  · decide +kernel
  · decide +kernel

end Expreduce
