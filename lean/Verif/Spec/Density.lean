import Verif.Model.Ex
import Mathlib.Analysis.SpecialFunctions.Pow.Real
import Mathlib.Analysis.SpecialFunctions.Log.Basic

/-! Specification for C128: what a real-valued expression means. -/

namespace Expreduce.Dn
open Expreduce Ex

open Classical in
/-- `Means σ e v`: with the values `σ` for the symbols, `e` has the real value `v`. -/
inductive Means (σ : String → ℝ) : Ex → ℝ → Prop
  | int (n : Int) : Means σ (.int n) n
  | sym (s : String) : Ex.sym s ≠ S "Pi" → Ex.sym s ≠ S "E" → Means σ (.sym s) (σ s)
  | pi : Means σ (S "Pi") Real.pi
  | plus2 {a b : Ex} {v w : ℝ} : Means σ a v → Means σ b w → Means σ (.expr [S "Plus", a, b]) (v + w)
  | times1 {a : Ex} {v : ℝ} : Means σ a v → Means σ (.expr [S "Times", a]) v
  | times {a b : Ex} {as : List Ex} {v w : ℝ} : Means σ a v → Means σ (.expr (S "Times" :: b :: as)) w → Means σ (.expr (S "Times" :: a :: b :: as)) (v * w)
  | exp {a : Ex} {v : ℝ} : Means σ a v → Means σ (.expr [S "Power", S "E", a]) (Real.exp v)
  | power {a : Ex} {v : ℝ} (n : Int) : Means σ a v → (v ≠ 0 ∨ 0 < n) → Means σ (.expr [S "Power", a, .int n]) (v ^ n)
  | sqrt {a : Ex} {v : ℝ} : Means σ a v → 0 ≤ v → Means σ (.expr [S "Power", a, .rat 1 2]) (Real.sqrt v)
  | log {a : Ex} {v : ℝ} : Means σ a v → 0 < v → Means σ (.expr [S "Log", a]) (Real.log v)
  | piecewise {a b d : Ex} {v w t e : ℝ} : Means σ a v → Means σ b w → Means σ d e → (v > w → Means σ t' t) →
      Means σ (.expr [S "Piecewise", .expr [S "List", .expr [S "List", t', .expr [S "Greater", a, b]]], d]) (if v > w then t else e)

end Expreduce.Dn
