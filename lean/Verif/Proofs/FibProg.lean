import Verif.Spec.FibProg
import Verif.Props.UserFnDefs

/-! `Fibonacci`: the table and one call. -/

namespace Expreduce
open Ex
namespace AssignProg

variable {A : AlgParams} {strLen : Ex → Nat} {fmt : Rat → String}

/-- The definitions as clauses. -/
def fibRules (known : List Nat) : List Clause := known.map (fun k => ⟨[.lit k], .int (Nat.fib k)⟩) ++ [⟨[.any fibVar], fibBody⟩]

theorem Memo.rules {st : EState} {known : List Nat} (h : Memo st known) : HasRules st fibSym (fibRules known) := by
  obtain ⟨ks, hk, -, hd⟩ := h.stored
  refine ⟨⟨_, hd, rfl, ⟨rfl, rfl⟩, ?_⟩, by decide, ?_⟩
  · rw [← hk]
    simp only [fibRules, List.map_append, List.map_map, List.map_cons, List.map_nil]
    rfl
  · intro cl hcl
    simp only [fibRules, List.mem_append, List.mem_map, List.mem_singleton] at hcl
    rcases hcl with ⟨k, -, rfl⟩ | rfl <;> simp [List.filterMap, ArgPat.name?]

theorem Memo.attrs {st : EState} {known : List Nat} (h : Memo st known) : attrsOf st fibSym = fibAttrs := by
  obtain ⟨ks, -, -, hd⟩ := h.stored
  simp [attrsOf, hd]

theorem same_int (n : Int) : isSameQ (.int n) (.int n) = true := by simp [isSameQ]

/-- A known number is looked up. -/
theorem find_known {B : Nat} (hB : NoMix B) {n : Nat} (hn : n ≤ B) : ∀ known : List Nat, (∀ k ∈ known, k ≤ B) → n ∈ known →
    (fibRules known).find? (fun cl => agree cl.args [.int n]) = some ⟨[.lit n], .int (Nat.fib n)⟩
  | [], _, h => by simp at h
  | k :: ks, hk, h => by
    have e : (ArgPat.lit (k : Int)).takes (.int (n : Int)) = isSameQ (.int n) (.int k) := rfl
    simp only [fibRules, List.map_cons, List.cons_append]
    by_cases hkn : n = k
    · subst hkn
      rw [List.find?_cons_of_pos (by simp [agree, e, same_int])]
    · rw [List.find?_cons_of_neg (by simp [agree, e, hB.ints n k hn (hk k (by simp)) hkn])]
      exact find_known hB hn ks (fun j hj => hk j (by simp [hj])) (by simpa [hkn] using h)

/-- For a number that is not known the general definition is used. -/
theorem find_unknown {B : Nat} (hB : NoMix B) {n : Nat} (hn : n ≤ B) : ∀ known : List Nat, (∀ k ∈ known, k ≤ B) → n ∉ known →
    (fibRules known).find? (fun cl => agree cl.args [.int n]) = some ⟨[.any fibVar], fibBody⟩
  | [], _, _ => by simp [fibRules, agree, ArgPat.takes]
  | k :: ks, hk, h => by
    have e : (ArgPat.lit (k : Int)).takes (.int (n : Int)) = isSameQ (.int n) (.int k) := rfl
    simp only [fibRules, List.map_cons, List.cons_append]
    rw [List.find?_cons_of_neg (by simp [agree, e, hB.ints n k hn (hk k (by simp)) (by rintro rfl; simp at h)])]
    exact find_unknown hB hn ks (fun j hj => hk j (by simp [hj])) (by simp at h; exact h.2)

theorem overwrite_none {hl rhs : Ex} : ∀ dvs : List DV, (∀ dv ∈ dvs, isSameQ dv.lhs hl = false) → overwrite hl rhs dvs = some none
  | [], _ => rfl
  | dv :: dvs, h => by
    rw [overwrite, overwrite_none dvs (fun d hd => h d (by simp [hd])), if_neg (by rw [h dv (by simp)]; exact Bool.false_ne_true)]
    rfl

theorem insert_known (hlen : strLen (held (fibCall (argP fibVar))) < 110) (hl rhs : Ex) : ∀ ks : List (Nat × Int), (∀ p ∈ ks, p.2 = 0 ∨ p.2 = 110) →
    insertRule strLen fibSym hl rhs 110 (ks.map fibValue ++ [fibGeneral]) = some (ks.map fibValue ++ [{ lhs := hl, rhs := rhs, spec := 110 }, fibGeneral])
  | [], _ => by
    have hs : specOf strLen fibSym fibGeneral = some (strLen (held (fibCall (argP fibVar))) : Int) := rfl
    rw [List.map_nil, List.nil_append, insertRule, hs]
    simp only
    rw [if_pos (by exact_mod_cast hlen)]
    rfl
  | p :: ks, h => by
    have hs : specOf strLen fibSym (fibValue p) = some 110 := by
      have : (fibValue p).spec = p.2 := rfl
      rcases h p (by simp) with h0 | h0
      · unfold specOf
        rw [if_pos (by rw [this, h0])]
        rfl
      · unfold specOf
        rw [if_neg (by rw [this, h0]; decide), this, h0]
    rw [List.map_cons, List.cons_append, insertRule, hs]
    simp only
    rw [if_neg (by decide), insert_known hlen hl rhs ks (fun q hq => h q (by simp [hq]))]
    rfl

/-- A new value is stored. -/
theorem define_value {B : Nat} (hB : NoMix B) (hlen : strLen (held (fibCall (argP fibVar))) < 110) {st : EState} (h : Shell st) {known : List Nat} (hm : Memo st known)
    (hk : ∀ k ∈ known, k ≤ B) {n : Nat} (hn : n ≤ B) (hnew : n ∉ known) :
    ∃ st', defineIn strLen st (fibCall (.int n)) (.int (Nat.fib n)) = .ok st' ∧ Memo st' (known ++ [n]) ∧ OnlyFib st st' ∧ Shell st' := by
  obtain ⟨ks, hks, hsp, hd⟩ := hm.stored
  have ho : overwrite (held (fibCall (.int n))) (.int (Nat.fib n)) (ks.map fibValue ++ [fibGeneral]) = some none := by
    refine overwrite_none _ ?_
    intro dv hdv
    simp only [List.mem_append, List.mem_map, List.mem_singleton] at hdv
    rcases hdv with ⟨p, hp, rfl⟩ | rfl
    · have hpk : p.1 ∈ known := by rw [← hks]; exact List.mem_map.2 ⟨p, hp, rfl⟩
      exact hB.lhs p.1 n (hk _ hpk) hn (by intro e; exact hnew (e ▸ hpk))
    · exact hB.general n hn
  have hs : ruleSpecificity strLen (held (fibCall (.int n))) (.int (Nat.fib n)) fibSym = some 110 := rfl
  have hdef := define_next (strLen := strLen) (st := st.toDState) h.notFrozen (lhs := fibCall (.int n)) (f := fibSym) rfl hd ho hs (insert_known hlen _ _ ks hsp)
  refine ⟨{ st with toDState := { defs := st.defs.set fibSym { downvalues := ks.map fibValue ++ [{ lhs := held (fibCall (.int n)), rhs := .int (Nat.fib n), spec := 110 }, fibGeneral], attrs := fibAttrs }, frozen := st.frozen } },
    by unfold defineIn; rw [hdef], ⟨⟨ks ++ [(n, 110)], by simp [hks], ?_, ?_⟩, by simp [hm.base]⟩, ⟨?_, rfl, rfl, rfl, rfl⟩, ?_⟩
  · intro p hp
    rcases List.mem_append.1 hp with hp | hp
    · exact hsp p hp
    · rw [List.mem_singleton.1 hp]; exact .inr rfl
  · simp [Table.set, fibValue, List.append_assoc]
  · intro g hg; simp [Table.set, hg]
  · have hr : fibSym ∉ reserved := by decide
    simp only [reserved, List.mem_cons, not_or] at hr
    refine ⟨?_, ?_, ?_, h.notThrown, h.notInterrupted, h.notFrozen⟩
    · intro p hp
      have : p.1 ≠ fibSym := by rintro e; exact hr.2.2.2.2 (List.mem_map.2 ⟨p, hp, e⟩)
      simp [Table.set, this, h.entry p hp]
    · intro s hs'
      have := h.noValue s hs'
      have hne : s ≠ fibSym := by
        rintro rfl
        revert hs'; decide
      simpa [getSymDef, Table.set, hne] using this
    · have := h.list
      simpa [hasBuiltin, attrsOf, rulesFor, Table.set, show "System`List" ≠ fibSym by decide] using this

theorem OnlyFib.trans {a b c : EState} (h : OnlyFib a b) (h' : OnlyFib b c) : OnlyFib a c :=
  ⟨fun g hg => (h'.others g hg).trans (h.others g hg), h'.thrown.trans h.thrown, h'.interrupted.trans h.interrupted, h'.sown.trans h.sown, h'.frozen.trans h.frozen⟩

theorem OnlyFib.refl (a : EState) : OnlyFib a a := ⟨fun _ _ => rfl, rfl, rfl, rfl, rfl⟩

/-- A known number. -/
theorem fib_known (hA : 3 ≤ A.bound) (hL : LocalsOk A.locals) {B : Nat} (hB : NoMix B) {st : EState} (h : Shell st) {known : List Nat} (hm : Memo st known)
    (hk : ∀ k ∈ known, k ≤ B) {n : Nat} (hn : n ∈ known) {e : Ex} (he : Evals (ctx A strLen fmt) st e st (.int n)) (hp : propagate [.sym fibSym, e] = none) :
    Evals (ctx A strLen fmt) st (fibCall e) st (.int (Nat.fib n)) := by
  have hno : ∀ i, ¬ holds (attrsOf st fibSym) i := by rw [hm.attrs]; simp [holds, fibAttrs]
  refine evals_rules hA hL hm.rules hm.rules h.notThrown (vs := [.int n]) ?_ ?_ (.step (hno 1) he h.notThrown .nil) (by intro w hw; simp at hw; subst hw; exact whole_int _) (by simp)
    ?_ (find_known hB (hk n hn) known hk hn) ?_ (by simp [Clause.instance, subst, app]) (body_atom (by simp [Clause.instance, subst]) (done_int _))
  · rw [hm.attrs]; simp [conditional, fibAttrs, hp]
  · intro _; simp [threadExpr, listLengths, argsOf]
  · intro cl hcl
    simp only [fibRules, List.mem_append, List.mem_map, List.mem_singleton] at hcl
    rcases hcl with ⟨k, -, rfl⟩ | rfl <;> rfl
  · intro s _; simp [Clause.instance, subst, hasHead]

theorem fib_instance (n : Nat) : Clause.instance ⟨[.any fibVar], fibBody⟩ [.int n] =
    .expr [S "Set", fibCall (.int n), .expr [S "Plus", fibCall (minusEx (.int n) (.int 1)), fibCall (minusEx (.int n) (.int 2))]] := by
  simp [Clause.instance, fibBody, fibCall, fibVar, fibSym, subst, substL, paramOf, minusEx, S]

/-- `Fibonacci[n] = e`. -/
theorem pass_set_fib {B : Nat} (hB : NoMix B) (hlen : strLen (held (fibCall (argP fibVar))) < 110) {st st1 : EState} (h : Shell st) (h1 : Shell st1) {known : List Nat}
    (hm : Memo st1 known) (hk : ∀ k ∈ known, k ≤ B) {n : Nat} (hn : n ≤ B) (hnew : n ∉ known) {e : Ex} (he : Evals (ctx A strLen fmt) st e st1 (.int (Nat.fib n))) :
    ∃ st', Memo st' (known ++ [n]) ∧ OnlyFib st1 st' ∧ Shell st' ∧
      ∃ N, ∀ m, N ≤ m → pass (ctx A strLen fmt) m (eval (ctx A strLen fmt) m) st [S "Set", fibCall (.int n), e] = .ok (st', .next (.int (Nat.fib n)) false) := by
  obtain ⟨st', hd, hm', ho, hs'⟩ := define_value hB hlen h1 hm hk hn hnew
  refine ⟨st', hm', ho, hs', ?_⟩
  have hme : ("System`Set", ({ attrs := { holdFirst := true, sequenceHold := true }, builtin := true } : DefM)) ∈ entries := by simp [entries]
  have ha := attrs_of h hme
  refine pass_cmd (f := "System`Set") mono h.notThrown (by simp [getSymDef, h.entryOf hme]) (by rw [ha]; rfl)
    (builtin_of h1 hme rfl rfl (F := fun _ _ st ps => setCall strLen st ps) (by funext n ev st ps; simp [fn]))
    (vs := [fibCall (.int n), .int (Nat.fib n)]) ?_ ?_ ⟨0, fun m _ => ?_⟩ (fun ev e => find_none hs' hme rfl ev e)
  · rw [ha]
    exact .hold (holdsFirst_one rfl) (.step (not_holds_two rfl rfl rfl) he h1.notThrown .nil)
  · intro w hw'
    simp only [List.mem_cons, List.not_mem_nil, or_false] at hw'
    rcases hw' with rfl | rfl
    · exact Whole.plain ⟨rfl, rfl, rfl⟩ _
    · exact (whole_int _).plain _
  · simp only [setCall, hd, Res.bind]

end AssignProg
end Expreduce
