import Verif.Props.Iter

/-! Concrete cases for C32, C33, C74. -/

namespace Expreduce
open Ex

namespace IterDemo

/-- No printed lengths. -/
def len : Ex → Nat := fun _ => 0

/-- No rules. -/
def noRules : Evaluator → EState → String → Ex → Res (EState × Option Ex) := fun _ st _ _ => .ok (st, none)

/-- The built-in functions of the example. -/
def fn (s : String) (n : Nat) (ev : Evaluator) (st : EState) (ps : List Ex) : Res (EState × Ex) :=
  if s = "System`Plus" then .ok (st, plusEval id ps.tail)
  else if s = "System`Times" then .ok (st, timesEval id ps.tail)
  else if s = "System`Table" then tableFn len noRules n ev st ps
  else if s = "System`Do" then doFn len noRules n ev st ps
  else if s = "System`Sum" then foldFn "System`Plus" (.int 0) len noRules n ev st ps
  else if s = "System`Product" then foldFn "System`Times" (.int 1) len noRules n ev st ps
  else if s = "System`Range" then rangeFn n ev st ps
  else if s = "System`Throw" then throwFn st ps
  else .ok (st, .expr ps)

/-- The context. -/
def ctx : Ctx := { fn := fn, same := fun a b => decide (a = b) }

/-- The attributes of the built-in symbols (`resources/arithmetic.m`, `resources/list.m`, `resources/flowcontrol.m`); `x` has the value 7. -/
def table : Table := fun s =>
  if s = "System`Plus" ∨ s = "System`Times" then
    some { attrs := { flat := true, listable := true, numericFunction := true, oneIdentity := true, orderless := true, prot := true }, builtin := true }
  else if s = "System`Table" ∨ s = "System`Do" ∨ s = "System`Sum" ∨ s = "System`Product" then some { attrs := { holdAll := true, prot := true }, builtin := true }
  else if s = "System`Range" then some { attrs := { listable := true, prot := true }, builtin := true }
  else if s = "System`Throw" then some { attrs := { prot := true }, builtin := true }
  else if s = "System`List" then some { attrs := { prot := true, locked := true } }
  else if s = "Global`x" then some { downvalues := [{ lhs := held (.sym "Global`x"), rhs := .int 7 }] }
  else none

/-- The initial state. -/
def st : EState := { defs := table }

theorem mono : ctx.Mono := by
  refine ⟨fun s n n' ev ev' st ps hn h => ?_, fun _ _ _ _ _ _ => .refl _⟩
  have hf : FindMono noRules := fun _ _ _ _ _ _ => .refl _
  show (fn s n ev st ps).Le (fn s n' ev' st ps)
  unfold fn
  split
  · exact .refl _
  split
  · exact .refl _
  split
  · exact tableFn_mono len hf h hn st ps
  split
  · exact doFn_mono len hf h hn st ps
  split
  · exact foldFn_mono _ _ len hf h hn st ps
  split
  · exact foldFn_mono _ _ len hf h hn st ps
  split
  · exact rangeFn_mono h hn st ps
  split <;> exact .refl _

theorem same (e : Ex) : ctx.same e e = true := by simp [ctx]

theorem sorts (l : List Ex) : (ctx.sort l).Perm l := insertionSort_perm _ l

theorem arith {s : EState} (h1 : s.defs "System`Plus" = table "System`Plus") (h2 : s.defs "System`Times" = table "System`Times") (h3 : s.thrown = none) :
    IntArith ctx s where
  notThrown := h3
  plus := ⟨id, {
    noValue := by simp [getSymDef, h1, table]
    builtin := by simp [hasBuiltin, h1, table]
    fn := by funext n ev st ps; simp [ctx, fn]
    noHold := by simp [attrsOf, h1, table]
    noRule := fun _ _ _ => rfl
    noMark := fun _ => rfl }⟩
  times := ⟨id, {
    noValue := by simp [getSymDef, h2, table]
    builtin := by simp [hasBuiltin, h2, table]
    fn := by funext n ev st ps; simp [ctx, fn]
    noHold := by simp [attrsOf, h2, table]
    noRule := fun _ _ _ => rfl
    noMark := fun _ => rfl }⟩

theorem rangeCall : RangeCall ctx st where
  noValue := rfl
  builtin := rfl
  fn := by funext n ev st ps; simp [ctx, fn]
  attrs := rfl
  noMark := fun _ => rfl
  noRule := fun _ _ => rfl
  arith := arith rfl rfl rfl
  list := ⟨rfl, rfl, fun _ _ => rfl⟩
  listAttrs := rfl
  listMark := fun _ => rfl

/-- C33: `Range[2, 9, 3]` is `{2, 5, 8}`, and `Range[1, 5, 0]` does not end. -/
example : Evals ctx st (app "System`Range" [.int 2, .int 9, .int 3]) st (app "System`List" [.int 2, .int 5, .int 8]) :=
  (C33_range mono same sorts rangeCall 2 9 3 (by decide)).1

example : Diverges ctx st (app "System`Range" [.int 1, .int 5, .int 0]) := C33_diverges mono sorts rangeCall 1 5 0 (by decide) (by decide)

/-- The variable `i`. -/
abbrev i : Ex := .sym "Global`i"
/-- The variable `x`. -/
abbrev x : Ex := .sym "Global`x"

theorem tableCall (args : List Ex) (h : ∀ p ∈ args, plainPart (attrsOf st "System`Table") p) : IterCall ctx st "System`Table" (tableFn len ctx.find) args where
  noValue := rfl
  builtin := rfl
  fn := by funext n ev st ps; simp [ctx, fn]; rfl
  plain := rfl
  noRules := fun _ _ _ => rfl
  noMark := rfl
  notThrown := rfl
  holdAll := rfl
  plainArgs := h

/-- The body `10 i + x`. -/
def body : Ex := app "System`Plus" [app "System`Times" [.int 10, i], x]
/-- The iterators `{i, 2}, {x, {5, 6}}`. -/
def iters : List Ex := [app "System`List" [i, .int 2], app "System`List" [x, app "System`List" [.int 5, .int 6]]]

theorem iterSeq : IterSeq ctx st iters st ((["Global`i", "Global`x"].map Ex.sym).zip [progression 1 2 1, [.int 5, .int 6]]) :=
  .cons (st1 := st) (.step (st1 := st) (fun h => h) ⟨5, rfl⟩ rfl .nil) (arith rfl rfl rfl) (.upTo _ 2 rfl)
    (.cons (st1 := st) (.step (st1 := st) (fun h => h) ⟨20, rfl⟩ rfl .nil) (arith rfl rfl rfl) (.list _ _ rfl) .nil)

theorem plainArgs : ∀ p ∈ body :: iters, plainPart ({ holdAll := true, prot := true } : Attrs) p := by
  intro p hp
  simp only [body, iters, List.mem_cons, List.not_mem_nil, or_false] at hp
  rcases hp with rfl | rfl | rfl <;> exact ⟨.inr (.inr rfl), .inr rfl, rfl⟩

theorem sumCall : IterCall ctx st "System`Sum" (foldFn "System`Plus" (.int 0) len ctx.find) (body :: iters) where
  noValue := rfl
  builtin := rfl
  fn := by funext n ev st ps; simp [ctx, fn]; rfl
  plain := rfl
  noRules := fun _ _ _ => rfl
  noMark := rfl
  notThrown := rfl
  holdAll := rfl
  plainArgs := plainArgs

theorem productCall : IterCall ctx st "System`Product" (foldFn "System`Times" (.int 1) len ctx.find) (body :: iters) where
  noValue := rfl
  builtin := rfl
  fn := by funext n ev st ps; simp [ctx, fn]; rfl
  plain := rfl
  noRules := fun _ _ _ => rfl
  noMark := rfl
  notThrown := rfl
  holdAll := rfl
  plainArgs := plainArgs

/-- The variables. -/
abbrev vars : List Ex := ["Global`i", "Global`x"].map Ex.sym
/-- The result, if there is one. -/
def okOr (s : EState) : Res EState → EState
  | .ok s' => s'
  | _ => s
/-- The states of the four rounds and the last state. -/
def s1 : EState := okOr st (assignAll len st vars [.int 1, .int 5])
/-- Second round. -/
def s2 : EState := okOr st (assignAll len s1 vars [.int 1, .int 6])
/-- Third round. -/
def s3 : EState := okOr st (assignAll len s2 vars [.int 2, .int 5])
/-- Fourth round. -/
def s4 : EState := okOr st (assignAll len s3 vars [.int 2, .int 6])
/-- At the end. -/
def s5 : EState := okOr st (restoreAll len s4 (valuesOf st ["Global`i", "Global`x"]))

set_option maxRecDepth 10000 in
/-- C32: `Table[10 i + x, {i, 2}, {x, {5, 6}}]` is `{15, 16, 25, 26}`. -/
example : ∃ st', Evals ctx st (app "System`Table" (body :: iters)) st' (app "System`List" [.int 15, .int 16, .int 25, .int 26]) := by
  refine ⟨s5, C32_table mono sorts (strLen := len) (st2 := s4) (by simp [iters]) (names := ["Global`i", "Global`x"]) (by rfl) (tableCall _ plainArgs) iterSeq
    (.cons (st1 := s1) (st2 := s1) rfl ⟨.int 15, ⟨20, rfl⟩, rfl⟩ (arith rfl rfl rfl) <|
      .cons (st1 := s2) (st2 := s2) rfl ⟨.int 16, ⟨20, rfl⟩, rfl⟩ (arith rfl rfl rfl) <|
      .cons (st1 := s3) (st2 := s3) rfl ⟨.int 25, ⟨20, rfl⟩, rfl⟩ (arith rfl rfl rfl) <|
      .cons (st1 := s4) (st2 := s4) rfl ⟨.int 26, ⟨20, rfl⟩, rfl⟩ (arith rfl rfl rfl) .nil) rfl (fun _ _ => rfl) ⟨20, rfl⟩⟩

set_option maxRecDepth 10000 in
/-- C32: `Sum[10 i + x, {i, 2}, {x, {5, 6}}]` is 82 and `Product[...]` is 156000. -/
example : Evals ctx st (app "System`Sum" (body :: iters)) s5 (.int 82) ∧ Evals ctx st (app "System`Product" (body :: iters)) s5 (.int 156000) := by
  have h := C32_sum_integers mono sorts (strLen := len) (st2 := s4) (st3 := s5) (body := body) (lists := iters) (by simp [iters])
    (names := ["Global`i", "Global`x"]) (is := [15, 16, 25, 26]) (by rfl) iterSeq
    (.cons (st1 := s1) (st2 := s1) rfl ⟨20, rfl⟩ (arith rfl rfl rfl) <| .cons (st1 := s2) (st2 := s2) rfl ⟨20, rfl⟩ (arith rfl rfl rfl) <|
      .cons (st1 := s3) (st2 := s3) rfl ⟨20, rfl⟩ (arith rfl rfl rfl) <|
      .cons (st1 := s4) (st2 := s4) rfl ⟨20, rfl⟩ (arith rfl rfl rfl) .nil) rfl (fun _ _ _ => rfl)
  exact ⟨h.1 sumCall, h.2 productCall⟩

set_option maxRecDepth 10000 in
/-- C74: after this, `x` has its old value 7 and `i` has none. -/
example : getSymDef s5.toDState "Global`x" = some (.int 7) ∧ getSymDef s5.toDState "Global`i" = none := ⟨rfl, rfl⟩

theorem plain4 (n : String) (v : Int) (h : rulesFor s4.toDState n = [{ lhs := held (.sym n), rhs := .int v }]) : PlainRules n (rulesFor s4.toDState n) := by
  rw [h]
  refine ⟨?_, ?_, ?_, ?_⟩ <;> intro dv hdv <;> rw [List.mem_singleton] at hdv <;> subst hdv
  · exact ⟨_, rfl⟩
  · intro u
    cases u
  · exact fun _ => ⟨rfl, rfl, fun _ _ _ h => by (cases h)⟩
  · exact fun _ => rfl

set_option maxRecDepth 10000 in
/-- C74: the conditions of `C74_restored_partial` hold there. -/
example : ∃ st3, restoreAll len s4 (valuesOf st ["Global`i", "Global`x"]) = .ok st3 ∧ getSymDef st3.toDState "Global`x" = some (.int 7) := by
  have hu : ∀ x ∈ ["Global`i", "Global`x"], ∀ d, getSymDef st.toDState x = some d → Unconditional d := by
    intro x hx d hd
    simp only [List.mem_cons, List.not_mem_nil, or_false] at hx
    rcases hx with rfl | rfl
    · exact absurd hd (by simp [show getSymDef st.toDState "Global`i" = none from rfl])
    · rw [show getSymDef st.toDState "Global`x" = some (.int 7) from rfl] at hd
      obtain rfl := Option.some.inj hd
      exact ⟨rfl, fun _ _ _ h => by (cases h)⟩
  have hp : ∀ x ∈ ["Global`i", "Global`x"], PlainRules x (rulesFor s4.toDState x) := by
    intro x hx
    simp only [List.mem_cons, List.not_mem_nil, or_false] at hx
    rcases hx with rfl | rfl
    · exact plain4 _ 2 rfl
    · exact plain4 _ 6 rfl
  obtain ⟨st3, h1, h2, -⟩ := C74_restored_partial len st s4 ["Global`i", "Global`x"] (by simp) rfl hu hp
  exact ⟨st3, h1, (h2 _ (by simp)).trans rfl⟩

theorem doCall (args : List Ex) (h : ∀ p ∈ args, plainPart ({ holdAll := true, prot := true } : Attrs) p) :
    IterCall ctx st "System`Do" (doFn len ctx.find) args where
  noValue := rfl
  builtin := rfl
  fn := by funext n ev st ps; simp [ctx, fn]; rfl
  plain := rfl
  noRules := fun _ _ _ => rfl
  noMark := rfl
  notThrown := rfl
  holdAll := rfl
  plainArgs := h

/-- `Throw[i]`. -/
def throwI : Ex := app "System`Throw" [i]
/-- The state in the first round. -/
def t1 : EState := okOr st (assignAll len st [i] [.int 1])
/-- The state after the throw. -/
def t2 : EState := { t1 with thrown := some (app "System`Throw" [.int 1]) }

set_option maxRecDepth 10000 in
/-- C74: `Do[Throw[i], {i, 5}]` leaves `i` with the value 1. -/
example : Evals ctx st (app "System`Do" [throwI, app "System`List" [i, .int 5]]) t2 (app "System`Throw" [.int 1]) ∧
    getSymDef t2.toDState "Global`i" = some (.int 1) := by
  refine ⟨C74_throw_leaks mono sorts (strLen := len) (names := ["Global`i"]) (values := [progression 1 5 1]) (rows := []) (row := [.int 1])
    (st1 := st) (st2 := st) (st3 := t1) (by simp) rfl (doCall _ ?_)
    (.cons (st1 := st) (.step (st1 := st) (fun h => h) ⟨5, rfl⟩ rfl .nil) (arith rfl rfl rfl) (.upTo _ 5 rfl) .nil) rfl .nil rfl (v := app "System`Throw" [.int 1]) ⟨20, rfl⟩ rfl
    (fun _ _ => rfl) ⟨20, rfl⟩, rfl⟩
  intro p hp
  simp only [throwI, List.mem_cons, List.not_mem_nil, or_false] at hp
  rcases hp with rfl | rfl <;> exact ⟨.inr (.inr rfl), .inr rfl, rfl⟩

end IterDemo
end Expreduce
