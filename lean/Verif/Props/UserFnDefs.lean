import Verif.Props.UserFn

/-! C121: the order in which the definitions of a function are tried. -/

namespace Expreduce
open Ex
open AssignProg

section
variable {A : AlgParams} {strLen : Ex → Nat} {fmt : Rat → String}

/-- `lhs = rhs` or `lhs := rhs` turns the state `st` into `st'`. -/
def Defines (strLen : Ex → Nat) (st : EState) (lhs rhs : Ex) (st' : EState) : Prop := defineIn strLen st lhs rhs = .ok st'

/-- The clause as a left side. -/
def Clause.lhs (cl : Clause) (f : String) : Ex := .expr (.sym f :: cl.args.map ArgPat.toEx)

theorem target_call {f : String} (h : f ≠ "" ∧ f ≠ "System`Attributes" ∧ f ≠ "System`DownValues") (ps : List Ex) : targetOf (.expr (.sym f :: ps)) = .rule f := by
  simp [targetOf, h]

theorem define_next {st : DState} {lhs rhs : Ex} {f : String} (hfr : st.frozen = false) (ht : targetOf lhs = .rule f) {d : DefM} (hd : st.defs f = some d)
    (ho : overwrite (held lhs) rhs d.downvalues = some none) {s : Int} (hs : ruleSpecificity strLen (held lhs) rhs f = some s) {dvs : List DV}
    (hi : insertRule strLen f (held lhs) rhs s d.downvalues = some dvs) :
    define strLen st lhs rhs = some { st with defs := st.defs.set f { d with downvalues := dvs } } := by
  unfold define
  rw [hfr, ht]
  simp only [Bool.false_eq_true, if_false, hd, defineRule, ho, hs, hi, Option.map_some]

/-- Two definitions of a new function. -/
theorem define_both {st : EState} {f : String} (hf : f ≠ "" ∧ f ≠ "System`Attributes" ∧ f ≠ "System`DownValues") (hfr : st.frozen = false) (hnew : st.defs f = none) (a b : Clause)
    (hd : isSameQ (held (a.lhs f)) (held (b.lhs f)) = false) {sa sb : Int} (ha : ruleSpecificity strLen (held (a.lhs f)) a.body f = some sa)
    (hb : ruleSpecificity strLen (held (b.lhs f)) b.body f = some sb) :
    ∃ st1 st2, Defines strLen st (a.lhs f) a.body st1 ∧ Defines strLen st1 (b.lhs f) b.body st2 ∧
      (∃ d, st2.defs f = some d ∧ d.builtin = false ∧ d.attrs = {} ∧ d.downvalues.map (fun dv => (dv.lhs, dv.rhs)) =
        (if sa < sb then [b, a] else [a, b]).map (fun cl => (Ex.expr [S "HoldPattern", .expr (.sym f :: cl.args.map ArgPat.toEx)], cl.body))) ∧
      (∀ g, g ≠ f → st2.defs g = st.defs g) ∧ st2.thrown = st.thrown ∧ st2.interrupted = st.interrupted ∧ st2.frozen = st.frozen := by
  let ra : DV := { lhs := held (a.lhs f), rhs := a.body }
  let dvs : List DV := if sa < sb then [{ lhs := held (b.lhs f), rhs := b.body, spec := sb }, ra] else [ra, { lhs := held (b.lhs f), rhs := b.body }]
  let t1 : Table := st.defs.set f { downvalues := [ra] }
  let t2 : Table := t1.set f { downvalues := dvs }
  have h1 : define strLen st.toDState (a.lhs f) a.body = some ⟨t1, st.frozen⟩ := by
    have ht : targetOf (a.lhs f) = .rule f := target_call hf _
    simp [define, hfr, hnew, ht, t1, ra]
  have ho : overwrite (held (b.lhs f)) b.body [ra] = some none := by
    rw [overwrite, if_neg (by rw [show ra.lhs = held (a.lhs f) from rfl, hd]; exact Bool.false_ne_true)]
    rfl
  have hi : insertRule strLen f (held (b.lhs f)) b.body sb [ra] = some dvs := by
    have hs : specOf strLen f ra = some sa := by rw [specOf, if_pos rfl]; exact ha
    rw [insertRule, hs]
    by_cases hlt : sa < sb
    · simp only [hlt, if_true, dvs]
    · simp only [hlt, if_false, dvs, insertRule, Option.map_some]
  have h2 : define strLen ⟨t1, st.frozen⟩ (b.lhs f) b.body = some ⟨t2, st.frozen⟩ := by
    exact define_next (by simpa using hfr) (target_call hf _) (d := { downvalues := [ra] }) (by simp [t1, Table.set]) ho hb hi
  refine ⟨{ st with toDState := ⟨t1, st.frozen⟩ }, { st with toDState := ⟨t2, st.frozen⟩ }, by simp [Defines, defineIn, h1], by simp [Defines, defineIn, h2],
    ⟨{ downvalues := dvs }, by simp [t2, Table.set], rfl, rfl, ?_⟩, ?_, rfl, rfl, rfl⟩
  · simp only [dvs]
    split <;> rfl
  · intro g hg; simp [t2, t1, Table.set, hg]

/-- A name a user may define: new, none of the symbols with a fixed meaning. -/
structure NewName (st : EState) (f : String) : Prop where
  fresh : st.defs f = none
  user : f ∉ reserved ∧ f ∉ CallMatch.specialHeads ∧ f ≠ "" ∧ f ≠ "System`Attributes" ∧ f ≠ "System`DownValues" ∧ f ≠ "Rubi`Int"

theorem shell_after {st st2 : EState} (h : Shell st) {f : String} (hf : NewName st f) (ho : ∀ g, g ≠ f → st2.defs g = st.defs g) (h1 : st2.thrown = st.thrown)
    (h2 : st2.interrupted = st.interrupted) (h3 : st2.frozen = st.frozen) : Shell st2 := by
  have hr := hf.user.1
  simp only [reserved, List.mem_cons, not_or] at hr
  refine ⟨?_, ?_, ?_, h1.trans h.notThrown, h2.trans h.notInterrupted, h3.trans h.notFrozen⟩
  · intro p hp
    rw [ho _ (by rintro rfl; exact hr.2.2.2.2 (List.mem_map.2 ⟨p, hp, rfl⟩))]
    exact h.entry p hp
  · intro s hs
    have := h.noValue s hs
    unfold getSymDef at this ⊢
    rw [ho s]
    · exact this
    · rintro rfl
      simp only [List.mem_cons, List.not_mem_nil, or_false] at hs
      rcases hs with h | h | h | h
      · exact hr.1 h
      · exact hr.2.1 h
      · exact hr.2.2.1 h
      · exact hr.2.2.2.1 h
  · have := h.list
    unfold hasBuiltin attrsOf rulesFor at this ⊢
    rw [ho _ (Ne.symm hr.2.2.2.1)]
    exact this

theorem spec_lit {f : String} (hf : f ≠ "Rubi`Int") (c : Int) (rhs : Ex) : ruleSpecificity strLen (held (Clause.lhs ⟨[.lit c], rhs⟩ f)) rhs f = some 110 := by
  simp [ruleSpecificity, hf, held, Clause.lhs, ArgPat.toEx, singleInt]

theorem spec_any {f : String} (hf : f ≠ "Rubi`Int") {cl : Clause} (hs : singleInt (cl.lhs f) = false) (hc : hasHead "System`Condition" cl.body = false) :
    ruleSpecificity strLen (held (cl.lhs f)) cl.body f = some (strLen (held (cl.lhs f)) : Int) := by
  simp [ruleSpecificity, hf, held, hs, hc]

theorem clauses_after {st2 : EState} {f : String} (hf : f ∉ CallMatch.specialHeads) {cs : List Clause} (hn : ∀ cl ∈ cs, (cl.args.filterMap ArgPat.name?).Nodup)
    (h : ∃ d, st2.defs f = some d ∧ d.builtin = false ∧ d.attrs = {} ∧ d.downvalues.map (fun dv => (dv.lhs, dv.rhs)) =
        cs.map (fun cl => (Ex.expr [S "HoldPattern", .expr (.sym f :: cl.args.map ArgPat.toEx)], cl.body))) :
    HasClauses st2 f cs ∧ attrsOf st2 f = {} := by
  obtain ⟨d, h1, h2, h3, h4⟩ := h
  exact ⟨⟨⟨d, h1, h2, by rw [h3]; rfl, h4⟩, hf, hn⟩, by simp [attrsOf, h1, h3]⟩

/-- C121: Whatever the order in which `f[c] = v` and `f[x_] := body` are entered, the definition for the integer is tried first (the printed form of the general left side, with its wrapper,
having less than 110 bytes). The session stays as shipped. -/
theorem C121_order_partial {st : EState} (h : Shell st) {f x : String} (hf : NewName st f) (c : Int) (v body : Ex) (hb : hasHead "System`Condition" body = false)
    (hd : isSameQ (held (.expr [.sym f, .int c])) (held (.expr [.sym f, argP x])) = false ∧ isSameQ (held (.expr [.sym f, argP x])) (held (.expr [.sym f, .int c])) = false)
    (hlen : strLen (held (.expr [.sym f, argP x])) < 110) (first second : Clause)
    (hfs : (first, second) = (⟨[.lit c], v⟩, ⟨[.any x], body⟩) ∨ (first, second) = (⟨[.any x], body⟩, ⟨[.lit c], v⟩)) :
    ∃ st1 st2, Defines strLen st (first.lhs f) first.body st1 ∧ Defines strLen st1 (second.lhs f) second.body st2 ∧
      HasClauses st2 f [⟨[.lit c], v⟩, ⟨[.any x], body⟩] ∧ attrsOf st2 f = {} ∧ Shell st2 := by
  obtain ⟨hu1, hu2, hu3, hu4, hu5, hu6⟩ := hf.user
  have s1 : ruleSpecificity strLen (held (Clause.lhs ⟨[.lit c], v⟩ f)) v f = some 110 := spec_lit hu6 c v
  have s2 := spec_any (strLen := strLen) hu6 (cl := ⟨[.any x], body⟩) rfl hb
  have hn : ∀ cl ∈ [(⟨[.lit c], v⟩ : Clause), ⟨[.any x], body⟩], (cl.args.filterMap ArgPat.name?).Nodup := by
    intro cl hcl
    simp only [List.mem_cons, List.not_mem_nil, or_false] at hcl
    rcases hcl with rfl | rfl <;> simp [List.filterMap, ArgPat.name?]
  have hlen' : ((strLen (held (Clause.lhs ⟨[.any x], body⟩ f)) : Nat) : Int) < 110 := by exact_mod_cast hlen
  rcases hfs with hfs | hfs
  · obtain ⟨rfl, rfl⟩ := Prod.mk.inj hfs
    obtain ⟨st1, st2, d1, d2, d3, d4, d5, d6, d7⟩ := define_both ⟨hu3, hu4, hu5⟩ h.notFrozen hf.fresh ⟨[.lit c], v⟩ ⟨[.any x], body⟩ hd.1 s1 s2
    rw [if_neg (by omega)] at d3
    have := clauses_after hu2 hn d3
    exact ⟨st1, st2, d1, d2, this.1, this.2, shell_after h hf d4 d5 d6 d7⟩
  · obtain ⟨rfl, rfl⟩ := Prod.mk.inj hfs
    obtain ⟨st1, st2, d1, d2, d3, d4, d5, d6, d7⟩ := define_both ⟨hu3, hu4, hu5⟩ h.notFrozen hf.fresh ⟨[.any x], body⟩ ⟨[.lit c], v⟩ hd.2 s2 s1
    rw [if_pos hlen'] at d3
    have := clauses_after hu2 hn d3
    exact ⟨st1, st2, d1, d2, this.1, this.2, shell_after h hf d4 d5 d6 d7⟩

/-- C121: a program of two lines. `f[0] = 1` and `f[x_] := x f[x - 1]`, entered in either order, then `f[n]` is `n!`. -/
theorem C121_factorial_program_partial (hA : 3 ≤ A.bound) (hL : LocalsOk A.locals) {st : EState} (h : Shell st) {f x : String} (hf : NewName st f)
    (hx : x ≠ f ∧ x ≠ "System`Times" ∧ x ≠ "System`Plus")
    (hd : isSameQ (held (.expr [.sym f, .int 0])) (held (.expr [.sym f, argP x])) = false ∧ isSameQ (held (.expr [.sym f, argP x])) (held (.expr [.sym f, .int 0])) = false)
    (hlen : strLen (held (.expr [.sym f, argP x])) < 110) :
    let body := Ex.expr [S "Times", .sym x, .expr [.sym f, minusEx (.sym x) (.int 1)]]
    ∀ p q : Ex × Ex, ((p, q) = ((.expr [.sym f, .int 0], .int 1), (.expr [.sym f, argP x], body)) ∨ (p, q) = ((.expr [.sym f, argP x], body), (.expr [.sym f, .int 0], .int 1))) →
    ∃ st1 st2, Defines strLen st p.1 p.2 st1 ∧ Defines strLen st1 q.1 q.2 st2 ∧
      ∀ n : Nat, (∀ k : Nat, 0 < k → k ≤ n → isSameQ (.int k) (.int 0) = false) → Evals (ctx A strLen fmt) st2 (app f [.int n]) st2 (.int n.factorial) := by
  intro body p q hpq
  have key : ∀ first second : Clause, ((first, second) = (⟨[.lit 0], .int 1⟩, ⟨[.any x], body⟩) ∨ (first, second) = (⟨[.any x], body⟩, ⟨[.lit 0], .int 1⟩)) →
      ∃ st1 st2, Defines strLen st (first.lhs f) first.body st1 ∧ Defines strLen st1 (second.lhs f) second.body st2 ∧
      ∀ n : Nat, (∀ k : Nat, 0 < k → k ≤ n → isSameQ (.int k) (.int 0) = false) → Evals (ctx A strLen fmt) st2 (app f [.int n]) st2 (.int n.factorial) := by
    intro first second hfs
    obtain ⟨st1, st2, d1, d2, hc, ha, hs⟩ := C121_order_partial h hf 0 (.int 1) body rfl hd hlen first second hfs
    exact ⟨st1, st2, d1, d2, fun n hk => C121_factorial_partial hA hL hs hc (by rw [ha]; simp [holds]) hx n hk _ (done_int _)⟩
  rcases hpq with h' | h'
  · obtain ⟨rfl, rfl⟩ := Prod.mk.inj h'
    exact key ⟨[.lit 0], .int 1⟩ ⟨[.any x], body⟩ (.inl rfl)
  · obtain ⟨rfl, rfl⟩ := Prod.mk.inj h'
    exact key ⟨[.any x], body⟩ ⟨[.lit 0], .int 1⟩ (.inr rfl)

/-- C121, refuted for two arguments: a base case `p[x_, c] := e` is never used beside `p[x_, y_] := e'`, whatever the order of the definitions, if its printed left side is the shorter one:
the longer left side is tried first, and fits every call. -/
theorem C121_base_case_hidden {st : EState} (h : Shell st) {p x y : String} (hp : NewName st p) (hxy : x ≠ y) (c : Int) (e e' : Ex)
    (hc : hasHead "System`Condition" e = false ∧ hasHead "System`Condition" e' = false)
    (hd : isSameQ (held (.expr [.sym p, argP x, .int c])) (held (.expr [.sym p, argP x, argP y])) = false ∧
      isSameQ (held (.expr [.sym p, argP x, argP y])) (held (.expr [.sym p, argP x, .int c])) = false)
    (hlen : strLen (held (.expr [.sym p, argP x, .int c])) < strLen (held (.expr [.sym p, argP x, argP y]))) (first second : Clause)
    (hfs : (first, second) = (⟨[.any x, .lit c], e⟩, ⟨[.any x, .any y], e'⟩) ∨ (first, second) = (⟨[.any x, .any y], e'⟩, ⟨[.any x, .lit c], e⟩)) :
    ∃ st1 st2, Defines strLen st (first.lhs p) first.body st1 ∧ Defines strLen st1 (second.lhs p) second.body st2 ∧
      HasClauses st2 p [⟨[.any x, .any y], e'⟩, ⟨[.any x, .lit c], e⟩] ∧ attrsOf st2 p = {} ∧ Shell st2 := by
  obtain ⟨hu1, hu2, hu3, hu4, hu5, hu6⟩ := hp.user
  have s1 := spec_any (strLen := strLen) hu6 (cl := ⟨[.any x, .lit c], e⟩) rfl hc.1
  have s2 := spec_any (strLen := strLen) hu6 (cl := ⟨[.any x, .any y], e'⟩) rfl hc.2
  have hn : ∀ cl ∈ [(⟨[.any x, .any y], e'⟩ : Clause), ⟨[.any x, .lit c], e⟩], (cl.args.filterMap ArgPat.name?).Nodup := by
    intro cl hcl
    simp only [List.mem_cons, List.not_mem_nil, or_false] at hcl
    rcases hcl with rfl | rfl <;> simp [List.filterMap, ArgPat.name?, hxy]
  have hlen' : ((strLen (held (Clause.lhs ⟨[.any x, .lit c], e⟩ p)) : Nat) : Int) < (strLen (held (Clause.lhs ⟨[.any x, .any y], e'⟩ p)) : Nat) := by exact_mod_cast hlen
  rcases hfs with hfs | hfs
  · obtain ⟨rfl, rfl⟩ := Prod.mk.inj hfs
    obtain ⟨st1, st2, d1, d2, d3, d4, d5, d6, d7⟩ := define_both ⟨hu3, hu4, hu5⟩ h.notFrozen hp.fresh ⟨[.any x, .lit c], e⟩ ⟨[.any x, .any y], e'⟩ hd.1 s1 s2
    rw [if_pos hlen'] at d3
    have := clauses_after hu2 hn d3
    exact ⟨st1, st2, d1, d2, this.1, this.2, shell_after h hp d4 d5 d6 d7⟩
  · obtain ⟨rfl, rfl⟩ := Prod.mk.inj hfs
    obtain ⟨st1, st2, d1, d2, d3, d4, d5, d6, d7⟩ := define_both ⟨hu3, hu4, hu5⟩ h.notFrozen hp.fresh ⟨[.any x, .any y], e'⟩ ⟨[.any x, .lit c], e⟩ hd.2 s2 s1
    rw [if_neg (by omega)] at d3
    have := clauses_after hu2 hn d3
    exact ⟨st1, st2, d1, d2, this.1, this.2, shell_after h hp d4 d5 d6 d7⟩

/-- `p[x_, y_] := p[x + 1, y - 1]`, tried before `p[x_, 0] := x`. -/
def shiftClauses (p x y : String) : List Clause :=
  [⟨[.any x, .any y], .expr [.sym p, .expr [S "Plus", .sym x, .int 1], minusEx (.sym y) (.int 1)]⟩, ⟨[.any x, .lit 0], .sym x⟩]

/-- C121, refuted: with `p[x_, 0] := x` and `p[x_, y_] := p[x + 1, y - 1]` tried in the order in which they are stored by `C121_base_case_hidden`, a call with integers never returns, where the
definitions say that `p[a, b]` is `a + b`. -/
theorem C121_hidden_diverges (hA : 3 ≤ A.bound) (hL : LocalsOk A.locals) {st : EState} (h : Shell st) {p x y : String} (hp : HasClauses st p (shiftClauses p x y))
    (hh : ∀ i, ¬ holds (attrsOf st p) i) (hpu : p ∉ ["System`Condition", "System`With", "System`Module", "System`Return"])
    (hx : x ≠ y ∧ x ≠ p ∧ y ≠ p ∧ ∀ s ∈ ["System`Times", "System`Plus"], x ≠ s ∧ y ≠ s) (a b : Int) :
    Diverges (ctx A strLen fmt) st (app p [.int a, .int b]) := by
  have key : ∀ n k (e1 e2 : Ex) (a b : Int) (ins : Bool) (last : Option Ex), Evals (ctx A strLen fmt) st e1 st (.int a) → Evals (ctx A strLen fmt) st e2 st (.int b) →
      unchanged (ctx A strLen fmt) last (app p [e1, e2]) = false → evalLoop (ctx A strLen fmt) n (eval (ctx A strLen fmt) n) k st ins last (app p [e1, e2]) = .stuck := by
    intro n k
    induction k with
    | zero => intros; rfl
    | succ k ih =>
      intro e1 e2 a b ins last h1 h2 hu
      have hseq : EvalSeq (ctx A strLen fmt) (holds (attrsOf st p)) 1 st [e1, e2] st [.int a, .int b] :=
        .step (hh _) h1 h.notThrown (.step (hh _) h2 h.notThrown .nil)
      have hinst : Clause.instance ⟨[.any x, .any y], .expr [.sym p, .expr [S "Plus", .sym x, .int 1], minusEx (.sym y) (.int 1)]⟩ [.int a, .int b] =
          app p [.expr [S "Plus", .int a, .int 1], minusEx (.int b) (.int 1)] := by
        have hp1 := hx.2.2.2 "System`Plus" (by simp)
        have ht1 := hx.2.2.2 "System`Times" (by simp)
        simp [Clause.instance, subst, substL, paramOf, minusEx, S, app, hx.1.symm, hx.2.1.symm, hx.2.2.1.symm, hp1.1.symm, hp1.2.symm, ht1.1.symm, ht1.2.symm]
      have hfind : (shiftClauses p x y).find? (fun cl => agree cl.args [.int a, .int b]) =
          some ⟨[.any x, .any y], .expr [.sym p, .expr [S "Plus", .sym x, .int 1], minusEx (.sym y) (.int 1)]⟩ := by
        simp [shiftClauses, agree, ArgPat.takes]
      obtain ⟨N, hN⟩ := pass_call (strLen := strLen) (fmt := fmt) hA hL hp hp h.notThrown hseq
        (by intro w hw; simp at hw; rcases hw with rfl | rfl <;> exact whole_int _) (by simp) (by simp [shiftClauses]) (by
          intro cl _ h' s hs
          rw [hfind] at h'
          obtain rfl := Option.some.inj h'
          rw [hinst]
          have : p ≠ s := by rintro rfl; exact hpu (by simp only [List.mem_cons, List.not_mem_nil, or_false] at hs ⊢; tauto)
          simpa [app, hasHead] using this)
      rw [hfind, Option.map_some, Option.getD_some, hinst] at hN
      have hle := pass_mono (c := ctx A strLen fmt) mono (Nat.le_max_left n N) (eval_mono (c := ctx A strLen fmt) mono (Nat.le_max_left n N)) st (.sym p :: [e1, e2])
      rw [hN _ (Nat.le_max_right _ _)] at hle
      have hret : (if ins = true then tryReturn st (.expr (.sym p :: [e1, e2])) else none) = none := by
        rw [no_return h (fun h' => hpu (by simp [h']))]; simp
      rw [app] at hu
      rw [app, evalLoop, if_neg (by simp [hu])]
      simp only [hret]
      rw [if_neg (by simp [ctx])]
      rcases hle with hs | hs
      · rw [hs]; rfl
      · rw [hs]
        simp only [Res.bind, afterPass]
        refine ih _ _ (a + 1) (b - 1) _ _ ?_ (evals_minus h b 1) ?_
        · exact evals_arith (f := "System`Plus") _ h (.inl ⟨rfl, rfl⟩) rfl (done_int a) (done_int 1) rfl rfl rfl (by rw [plusEval_ints]) (by rw [plusEval_ints]; congr 1; omega)
        · simp only [unchanged, ctx, Option.map_some, Option.getD_some, decide_eq_false_iff_not, app, Ex.expr.injEq, List.cons.injEq, not_and]
          rintro - rfl
          have h3 : Evals (ctx A strLen fmt) st (.expr [S "Plus", .int a, .int 1]) st (.int (a + 1)) :=
            evals_arith (f := "System`Plus") _ h (.inl ⟨rfl, rfl⟩) rfl (done_int a) (done_int 1) rfl rfl rfl (by rw [plusEval_ints]) (by rw [plusEval_ints]; congr 1; omega)
          have := (h1.unique mono h3).2
          simp at this
  intro n
  cases n with
  | zero => rfl
  | succ n =>
    rw [app, eval_expr]
    exact key n (n + 1) _ _ a b false none (done_int a) (done_int b) rfl

/-- C121, concrete: the hypotheses hold for `f[x_] := x f[x - 1]; f[0] = 1` and the call `f[5]`, which gives 120. -/
example : ∃ st1 st2, Defines (fun _ => 20) (session [] [] [] []) (.expr [.sym "Global`f", argP "Global`n"])
      (.expr [S "Times", .sym "Global`n", .expr [.sym "Global`f", minusEx (.sym "Global`n") (.int 1)]]) st1 ∧
    Defines (fun _ => 20) st1 (.expr [.sym "Global`f", .int 0]) (.int 1) st2 ∧ Evals (ctx {} (fun _ => 20) fmt) st2 (app "Global`f" [.int 5]) st2 (.int 120) := by
  obtain ⟨st1, st2, h1, h2, h3⟩ := C121_factorial_program_partial (A := {}) (strLen := fun _ => 20) (fmt := fmt) (by decide) locals_std (session_shell [] [] [] [])
    (f := "Global`f") (x := "Global`n") ⟨rfl, by decide⟩ (by decide) (by decide +kernel) (by decide) _ _ (.inr rfl)
  refine ⟨st1, st2, h1, h2, h3 5 ?_⟩
  intro k h0 h5
  have : k = 1 ∨ k = 2 ∨ k = 3 ∨ k = 4 ∨ k = 5 := by omega
  rcases this with rfl | rfl | rfl | rfl | rfl <;> decide +kernel

/-- C121, concrete: `p[x_, 0] := x; p[x_, y_] := p[x + 1, y - 1]` (their printed left sides have 21 and 22 bytes), then `p[2, 3]` never returns. -/
example : ∃ (len : Ex → Nat) (st1 st2 : EState), Defines len (session [] [] [] []) (.expr [.sym "Global`p", argP "Global`a", .int 0]) (.sym "Global`a") st1 ∧
    Defines len st1 (.expr [.sym "Global`p", argP "Global`a", argP "Global`b"])
      (.expr [.sym "Global`p", .expr [S "Plus", .sym "Global`a", .int 1], minusEx (.sym "Global`b") (.int 1)]) st2 ∧
    Diverges (ctx {} len fmt) st2 (app "Global`p" [.int 2, .int 3]) := by
  let len : Ex → Nat := fun e => if e = held (.expr [.sym "Global`p", argP "Global`a", .int 0]) then 21 else 22
  obtain ⟨st1, st2, h1, h2, h3, h4, h5⟩ := C121_base_case_hidden (strLen := len) (session_shell [] [] [] []) (p := "Global`p") (x := "Global`a") (y := "Global`b")
    ⟨rfl, by decide⟩ (by decide) 0 (.sym "Global`a") (.expr [.sym "Global`p", .expr [S "Plus", .sym "Global`a", .int 1], minusEx (.sym "Global`b") (.int 1)])
    ⟨rfl, rfl⟩ (by decide +kernel) (by simp [len, held, argP]) _ _ (.inl rfl)
  exact ⟨len, st1, st2, h1, h2, C121_hidden_diverges (by decide) locals_std h5 h3 (by rw [h4]; simp [holds]) (by decide) (by decide) 2 3⟩

end
end Expreduce
