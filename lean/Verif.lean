import Verif.Props.Order
import Verif.Props.Arith
import Verif.Props.NumRules
import Verif.Props.NumTheory
import Verif.Props.Compare
import Verif.Props.Alloc
import Verif.Props.Match
import Verif.Props.Replace
import Verif.Props.Defs
import Verif.Props.Concurrent
import Verif.Props.Eval
import Verif.Props.Eval2
import Verif.Props.EvalEx
import Verif.Props.EvalObj
import Verif.Props.Iter
import Verif.Props.IterEx
import Verif.Props.Lists
import Verif.Props.Lists2
import Verif.Props.FreeQ
import Verif.Props.Functional
import Verif.Props.Functional2
import Verif.Props.Functional3
import Verif.Props.Functional4
import Verif.Props.Matrix
import Verif.Props.Inequality
import Verif.Props.Streams
import Verif.Props.Timing
import Verif.Props.Unique
import Verif.Model.Parser
import Verif.Spec.Parser
import Verif.Props.Context
import Verif.Props.Parser
import Verif.Props.Print
import Verif.Props.PrintInput
import Verif.Props.PatternToken
import Verif.Props.Reading
import Verif.Props.Strings
import Verif.Props.Structure
import Verif.Props.Save
import Verif.Props.Sow
import Verif.Props.Files
import Verif.Props.Meaning
import Verif.Proofs.EvalMeaning
import Verif.Proofs.EvalMono
import Verif.Props.Algebra
import Verif.Spec.Standard
import Verif.Props.Shipped
import Verif.Props.ShippedWrong
import Verif.Props.Diff
import Verif.Props.DiffExample
import Verif.Props.Graphics
import Verif.Props.Interrupt
import Verif.Props.Solve
import Verif.Props.Inverse
import Verif.Props.Linear
import Verif.Props.Rest
import Verif.Props.Trace
import Verif.Props.Session
import Verif.Props.Integral
import Verif.Props.Definite
import Verif.Props.Expand
import Verif.Props.With
import Verif.Props.BoolRules
import Verif.Props.ReplacePart
import Verif.Props.ListProg
import Verif.Props.AssignProg
import Verif.Props.ForLoop
import Verif.Props.UserFn
import Verif.Props.UserFnDefs
import Verif.Props.UserFnPrint
import Verif.Props.FibProg
import Verif.Props.ImpProg
import Verif.Props.FunProg
import Verif.Props.HashCache
import Verif.Props.HashMin
import Verif.Props.Summary
import Verif.Props.Isolate
import Verif.Props.Density
