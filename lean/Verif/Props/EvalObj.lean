import Verif.Proofs.EvalObj
import Verif.Spec.EvalObj

/-! Property C52: whether definitions are evaluated anew on each use (object-level model of the evaluator). -/

namespace Expreduce
open Ex

/-- C52, the part that holds. The right sides of definitions `f[x_, ...] := rhs` that mention one of their names are copied on each use: an evaluation, however
long and of whatever expression, leaves every object of such a right side as it is, as long as no other expression shares these objects; and this stays so. -/
theorem C52_functions_partial {P : Nat → Prop} {n : Nat} {s s' : OState} {v w : Val} (hi : Isolated P s) (hv : ∀ b, v = .ref b → ¬ P b)
    (h : evalO n s v = .ok (s', w)) :
    Isolated P s' ∧ (∀ b, w = .ref b → ¬ P b) ∧ s'.rules = s.rules ∧ (∀ a, P a → s'.heap[a]? = s.heap[a]?) ∧
      ∀ f r c, s.rules f = some r → (∀ b, r.rhs = .ref b → P b) → content s.heap r.rhs = some c → content s'.heap r.rhs = some c := by
  obtain ⟨i1, k1, o1⟩ := evalO_frame P n s v s' w hi hv h
  refine ⟨i1, o1, k1.rules, k1.nodes, ?_⟩
  intro f r c _ hP hc
  exact readF_kept hi.inside k1.nodes _ _ (by have := k1.grows; omega) _ hP c hc

/-- C52 is false of the code: an expression that has come out of an evaluation is never evaluated again, whatever is defined afterwards
(so the value assigned by `y = rhs` does not follow later assignments to the symbols in it). -/
theorem C52_value_frozen {n : Nat} {s s' : OState} {v : Val} {b : Nat} (h : evalO n s v = .ok (s', .ref b)) :
    ∀ s'' : OState, s''.heap = s'.heap → ∀ m, evalO (m + 1) s'' (.ref b) = .ok (s'', .ref b) := by
  obtain ⟨c, h1, h2⟩ := evalO_finished n s v s' _ h b rfl
  intro s'' hs m
  exact evalO_marked (by rw [hs]; exact h1) (by rw [hs]; exact h2) m

/-- C52 is false of the code for `x := f[...]` when nothing is defined for `f`: the first use of `x` overwrites the stored right side with its value, and every
later use gives the same value, whatever is assigned in between. -/
theorem C52_delayed_stale {n : Nat} {s s' : OState} {x f : String} {a : Nat} {v : Val} (hx : s.own x = some (.ref a)) (hf : FreeCall f a s)
    (h : evalO n s (.atom (.sym x)) = .ok (s', v)) :
    v = .ref a ∧ ∀ s'' : OState, s''.heap = s'.heap → s''.own x = some (.ref a) → ∀ m, evalO (m + 2) s'' (.atom (.sym x)) = .ok (s'', .ref a) := by
  cases n with
  | zero => cases h
  | succ n =>
    unfold evalO at h
    simp only [hx] at h
    rw [if_neg (by simp)] at h
    have hv : v = .ref a := by
      cases n with
      | zero => cases h
      | succ n => exact (objLoop_call (evalO_call f a n) _ _ _ _ _ _ hf h).2.2 rfl
    subst hv
    refine ⟨rfl, ?_⟩
    intro s'' hs ho m
    obtain ⟨c, h1, h2⟩ := evalO_finished n s _ s' _ h a rfl
    have := evalO_marked (s := s'') (by rw [hs]; exact h1) (by rw [hs]; exact h2) m
    show (match s''.own x with | none => _ | some d => _) = _
    rw [ho]
    simp only
    rw [if_neg (by simp)]
    exact this

/-- C52 is false of the code for `f[x_, ...] := g[...]` when the right side mentions none of the names and nothing is defined for `g`: the value of
a call is the stored right side itself, overwritten with its value, and every later call with values as arguments has the same value, whatever is assigned
in between. Here for a call whose arguments are integers. -/
theorem C52_rule_stale {n : Nat} {s s' : OState} {f g : String} {r : FnRule} {a b : Nat} {v : Val}
    (hb : FreeCall g b s) (hr : s.rules f = some r) (hrhs : r.rhs = .ref b) (hfo : s.own f = none)
    (hnode : ∃ args, s.heap[a]? = some { parts := .atom (.sym f) :: args, mark := none } ∧ r.params.length = args.length ∧
      ∀ u ∈ args, ∃ k, u = .atom (.int k))
    (hno : mentionsAny s.heap r.params r.rhs = false)
    (h : evalO n s (.ref a) = .ok (s', v)) :
    v = .ref b ∧ ∃ c, content s'.heap (.ref b) = some c ∧ markOf s'.heap b = some c := by
  cases n with
  | zero => cases h
  | succ n =>
  obtain ⟨args, hn, hlen, hargs⟩ := hnode
  have hval : ∀ u ∈ Val.atom (.sym f) :: args, ∀ s1 w t, s1.own = s.own → evalO n s1 u = .ok (t, w) → t = s1 ∧ w = u := by
    intro u hu s1 w t hs1 he
    cases n with
    | zero => cases he
    | succ n =>
      rcases List.mem_cons.1 hu with rfl | hu
      · unfold evalO at he
        rw [hs1, hfo] at he
        simp only [Res.ok.injEq, Prod.mk.injEq] at he
        exact ⟨he.1.symm, he.2.symm⟩
      · obtain ⟨k, rfl⟩ := hargs u hu
        simp only [evalO, Res.ok.injEq, Prod.mk.injEq] at he
        exact ⟨he.1.symm, he.2.symm⟩
  have hparts : ∀ is s1, evalPartsO (evalO n) a is s = .ok s1 → s1 = s := by
    intro is
    induction is with
    | nil => intro s1 h1; simp only [evalPartsO, Res.ok.injEq] at h1; exact h1.symm
    | cons i is ih =>
      intro s1 h1
      unfold evalPartsO at h1
      cases hp : partOf s.heap a i with
      | none => rw [hp] at h1; cases h1
      | some u =>
        rw [hp] at h1
        simp only at h1
        replace h1 := Res.bind_ok h1
        obtain ⟨⟨t, w⟩, hw, h1⟩ := h1
        have hu : (Val.atom (.sym f) :: args)[i]? = some u := by simpa [partOf, hn] using hp
        obtain ⟨rfl, rfl⟩ := hval u (List.mem_of_getElem? hu) s w t rfl hw
        have hset : setPart t.heap a i w = t.heap := by
          unfold setPart
          apply List.ext_getElem?
          intro j
          rw [List.getElem?_modify]
          by_cases hj : a = j
          · subst hj
            rw [hn]
            have hlt : i < (Val.atom (.sym f) :: args).length := (List.getElem?_eq_some_iff.1 hu).1
            have hget : (Val.atom (.sym f) :: args)[i] = w := (List.getElem?_eq_some_iff.1 hu).2
            simp only [if_true, Option.map_eq_map, Option.map_some, Option.some.injEq, Node.mk.injEq, and_true]
            rw [← hget, List.set_getElem_self]
          · cases t.heap[j]? <;> simp [hj]
        simp only [hset] at h1
        exact ih _ h1
  have hab : a ≠ b := by
    rintro rfl
    have h1 := hb.head
    unfold partOf at h1
    rw [hn] at h1
    simp only [Option.bind_some, List.getElem?_cons_zero, Option.some.injEq, Val.atom.injEq, Ex.sym.injEq] at h1
    subst h1
    rw [hb.rules] at hr
    cases hr
  have hv : v = .ref b := by
    have h' := h
    simp only [evalO] at h'
    unfold objLoop at h'
    cases hc : content s.heap (.ref a) with
    | none => rw [hc] at h'; cases h'
    | some c =>
      rw [hc] at h'
      simp only at h'
      rw [if_neg (by simp)] at h'
      have hm : markOf s.heap a = none := by simp [markOf, hn]
      rw [hm, if_neg (by simp)] at h'
      replace h' := Res.bind_ok h'
      obtain ⟨s1, h1, h'⟩ := h'
      obtain rfl := hparts _ _ h1
      have hrule : ruleFor s1 a = some (r, args) := by
        unfold ruleFor
        rw [hn]
        simp [hr, hlen]
      rw [hrule] at h'
      simp only at h'
      have hfst : (r.params.zip args).map Prod.fst = r.params := List.map_fst_zip (by omega)
      have hin : instantiate s1.heap (r.params.zip args) r.rhs = some (s1.heap, r.rhs) := by
        unfold instantiate
        rw [hfst, hno]
        rfl
      rw [hin] at h'
      simp only [hrhs] at h'
      exact (objLoop_call (evalO_call g b n) _ _ _ _ _ _ hb h').2.2 rfl
  subst hv
  obtain ⟨c, h1, h2⟩ := evalO_finished _ s _ s' _ h b rfl
  exact ⟨rfl, c, h1, h2⟩

namespace ObjDemo

/-- Object 0 is `h[a]`, object 1 is `f[1]`, object 2 is `h[y, a]`. -/
def heap : List Node := [{ parts := [.atom (.sym "h"), .atom (.sym "a")] }, { parts := [.atom (.sym "f"), .atom (.int 1)] },
  { parts := [.atom (.sym "h"), .atom (.sym "y"), .atom (.sym "a")] }, { parts := [.atom (.sym "k"), .atom (.int 3)] }]

/-- `x := h[a]`, `f[y_] := h[a]`, `k[y_] := h[y, a]`, and `a = n`; `f` and `x` share nothing. -/
def st (hp : List Node) (n : Int) : OState where
  heap := hp
  own s := if s = "x" then some (.ref 0) else if s = "a" then some (.atom (.int n)) else none
  rules s := if s = "k" then some ⟨["y"], .ref 2⟩ else none

/-- The content of the value and the heap afterwards. -/
def run (s : OState) (v : Val) : Option (Ex × List Node) :=
  match evalO 10 s v with
  | .ok (s', w) => (content s'.heap w).map (·, s'.heap)
  | _ => none

/-- With `a = 1`, `x` is `h[1]`; afterwards, with `a = 2`, it still is, though evaluated afresh it would be `h[2]`. -/
example : ((run (st heap 1) (.atom (.sym "x"))).map Prod.fst = some (.expr [.sym "h", .int 1])) ∧
    ((run (st heap 2) (.atom (.sym "x"))).map Prod.fst = some (.expr [.sym "h", .int 2])) ∧
    (((run (st heap 1) (.atom (.sym "x"))).bind (fun r => run (st r.2 2) (.atom (.sym "x")))).map Prod.fst = some (.expr [.sym "h", .int 1])) := by
  decide +kernel

/-- The hypotheses of C52_delayed_stale. -/
example : (st heap 1).own "x" = some (.ref 0) ∧ FreeCall "h" 0 (st heap 1) := ⟨rfl, ⟨rfl, rfl, rfl⟩⟩

/-- The right side `h[y, a]` of `k` is isolated, and `k[3]` is `h[3, 1]`, then with `a = 2` `h[3, 2]`. -/
example : Isolated (fun a => a = 2) (st heap 1) ∧
    ((run (st heap 1) (.ref 3)).map Prod.fst = some (.expr [.sym "h", .int 3, .int 1])) ∧
    (((run (st heap 1) (.ref 3)).bind (fun r => run (st (r.2 ++ [{ parts := [.atom (.sym "k"), .atom (.int 3)] }]) 2) (.ref r.2.length))).map Prod.fst =
      some (.expr [.sym "h", .int 3, .int 2])) := by
  refine ⟨⟨?_, ?_, ?_, ?_, ?_⟩, by decide +kernel, by decide +kernel⟩
  · rintro a rfl; decide
  · intro a nd hn ha b hb
    match a, hn with
    | 0, hn => simp [st, heap] at hn; subst hn; simp at hb
    | 1, hn => simp [st, heap] at hn; subst hn; simp at hb
    | 2, hn => exact absurd rfl ha
    | 3, hn => simp [st, heap] at hn; subst hn; simp at hb
  · intro x b hb
    simp only [st] at hb
    split at hb
    · simp at hb; omega
    · split at hb <;> simp at hb
  · intro f r hr b hb _
    simp only [st] at hr
    split at hr
    · simp only [Option.some.injEq] at hr
      subst hr
      decide +kernel
    · cases hr
  · rintro a nd hn rfl b hb
    simp [st, heap] at hn; subst hn; simp at hb

/-- `f[y_] := h[a]` as in C52_rule_stale. -/
def st2 (hp : List Node) (n : Int) : OState where
  heap := hp
  own s := if s = "a" then some (.atom (.int n)) else none
  rules s := if s = "f" then some ⟨["y"], .ref 0⟩ else none

/-- The hypotheses of C52_rule_stale. -/
example : FreeCall "h" 0 (st2 heap 1) ∧ (st2 heap 1).rules "f" = some ⟨["y"], .ref 0⟩ ∧ (st2 heap 1).own "f" = none ∧
    (∃ args, (st2 heap 1).heap[1]? = some { parts := .atom (.sym "f") :: args, mark := none } ∧ ["y"].length = args.length ∧ ∀ u ∈ args, ∃ k, u = .atom (.int k)) ∧
    mentionsAny (st2 heap 1).heap ["y"] (.ref 0) = false :=
  ⟨⟨rfl, rfl, rfl⟩, rfl, rfl, ⟨[.atom (.int 1)], rfl, rfl, by simp⟩, by decide +kernel⟩

/-- `f[1]` is `h[1]` with `a = 1`, and still `h[1]` after `a = 2`. -/
example : ((run (st2 heap 1) (.ref 1)).map Prod.fst = some (.expr [.sym "h", .int 1])) ∧
    (((run (st2 heap 1) (.ref 1)).bind (fun r => run (st2 (r.2 ++ [{ parts := [.atom (.sym "f"), .atom (.int 1)] }]) 2) (.ref r.2.length))).map Prod.fst =
      some (.expr [.sym "h", .int 1])) := by
  decide +kernel

end ObjDemo

end Expreduce
