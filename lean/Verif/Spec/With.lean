import Verif.Spec.Replace

/-! # What `With` and `Switch` should give -/

namespace Expreduce

/-- One declaration after the other: the value of the first replaces its variable, then the second one does in the result, and so on. -/
def letIn (bs : List (String × Ex)) (body : Ex) : Ex :=
  bs.foldl (fun e b => subst (fun s => if s = b.1 then some b.2 else none) e) body

/-- `x = v`, or `x := v`. -/
def declaration (delayed : Bool) (x : String) (v : Ex) : Ex :=
  .expr [.sym (if delayed then "System`SetDelayed" else "System`Set"), .sym x, v]

/-- `With[{declarations}, body]`, without the head. -/
def withArgs (ds : List (Bool × String × Ex)) (body : Ex) : List Ex :=
  [.expr (.sym "System`List" :: ds.map (fun d => declaration d.1 d.2.1 d.2.2)), body]

/-- The variables and values declared. -/
def declared (ds : List (Bool × String × Ex)) : List (String × Ex) := ds.map (·.2)

/-- The arguments `p1, v1, p2, v2, ...` of `Switch`. -/
def casesOf (cs : List (Ex × Ex)) : List Ex := cs.flatMap (fun c => [c.1, c.2])

end Expreduce
