import Verif.Model.Sow
import Verif.Spec.Eval

/-! Specification for `Sow` and `Reap`. -/

namespace Expreduce
open Ex

/-- The interpreter that never comes back from a call of `f`: what finishes there has not called `f`. -/
def Ctx.without (c : Ctx) (f : String) : Ctx :=
  { c with fn := fun s n ev st ps => if s = f then .stuck else c.fn s n ev st ps }

/-- Every function called by the evaluator leaves the states related by `R`, if the evaluations it asks for do. -/
structure Ctx.Keeps (c : Ctx) (R : EState → EState → Prop) : Prop where
  fn : ∀ s n ev st ps st' v, (∀ st e st' v, ev st e = .ok (st', v) → R st st') → c.fn s n ev st ps = .ok (st', v) → R st st'
  find : ∀ s ev st e st' v, (∀ st e st' v, ev st e = .ok (st', v) → R st st') → c.find ev st s e = .ok (st', v) → R st st'

/-- The values recorded in `st'` are those of `st` and some more behind them; if nothing is being recorded, that stays so. -/
def SownGrows (st st' : EState) : Prop := ∃ l, st'.sown = st.sown.map (· ++ l)

/-- `e` has the value `v`, throws nothing, and the values it sows are `l`, in this order. -/
def Sows (c : Ctx) (st : EState) (e : Ex) (st' : EState) (v : Ex) (l : List Ex) : Prop :=
  Evals c st e st' v ∧ st'.thrown = none ∧ st'.sown = st.sown.map (· ++ l)

/-- The expressions, evaluated from left to right except the held ones, sow `l` in total. -/
inductive SowSeq (c : Ctx) (held : Nat → Prop) : Nat → EState → List Ex → EState → List Ex → List Ex → Prop
  | nil {i st} : SowSeq c held i st [] st [] []
  | hold {i st p ps st' vs l} : held i → SowSeq c held (i + 1) st ps st' vs l → SowSeq c held i st (p :: ps) st' (p :: vs) l
  | step {i st p ps st1 v l st' vs l'} : ¬ held i → Sows c st p st1 v l → SowSeq c held (i + 1) st1 ps st' vs l' →
      SowSeq c held i st (p :: ps) st' (v :: vs) (l ++ l')

/-- In the state, `Sow`, `Reap` and `CompoundExpression` are as in the code, and `List` is an ordinary head. -/
structure HasSow (c : Ctx) (st : EState) : Prop where
  sowCmd : Command c "System`Sow" (fun _ ev st ps => sowFn ev st ps) st
  sowHold : ∀ i, ¬ holds (attrsOf st "System`Sow") i
  reapCmd : Command c "System`Reap" (fun _ ev st ps => reapFn ev st ps) st
  reapHold : (attrsOf st "System`Reap").holdFirst = true
  compoundCmd : Command c "System`CompoundExpression" (fun _ ev st ps => compoundFn ev st ps) st
  compoundHold : (attrsOf st "System`CompoundExpression").holdAll = true
  list : FreeHead c st "System`List"
  listHold : ∀ i, ¬ holds (attrsOf st "System`List") i
  listPlain : (attrsOf st "System`List").noRearrange = true

end Expreduce
