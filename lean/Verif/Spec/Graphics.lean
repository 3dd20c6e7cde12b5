import Verif.Model.Graphics

/-!
# What a picture shows

A picture is a tree of lists. A place in it is given by the positions to choose on the way down (0 for the first
element). The directives in force at a place are those that stand, in one of the lists on the way, before the
element through which the way goes on.
-/

namespace Expreduce
open Ex

/-- What stands at a place of a picture (only lists are entered). -/
def picAt : Ex → List Nat → Option Ex
  | e, [] => some e
  | e, i :: p =>
    match argsOf "System`List" e with
    | none => none
    | some es =>
      match es[i]? with
      | none => none
      | some a => picAt a p

/-- The parts of a `Directive`. -/
def directiveParts (e : Ex) : List Ex := (argsOf "System`Directive" e).getD []

/-- The directives in force at a place, the oldest first. -/
def inForce : Ex → List Nat → List Ex
  | _, [] => []
  | e, i :: p =>
    match argsOf "System`List" e with
    | none => []
    | some es =>
      match es[i]? with
      | none => []
      | some a => (es.take i).flatMap directiveParts ++ inForce a p

/-- The last entry of a list for which `f` gives a value, and that value. -/
def lastSome {β : Type} (f : Ex → Option β) (ds : List Ex) : Option β := ds.reverse.findSome? f

/-- Red, green, blue of a colour directive. -/
def colourOf (C : Conv) (d : Ex) : Option (UInt8 × UInt8 × UInt8) :=
  match argsOf "System`RGBColor" d with
  | some [.flt x, .flt y, .flt z] => some (C.chan x, C.chan y, C.chan z)
  | _ => none

/-- The opacity a directive sets: a colour is opaque. -/
def alphaOf (C : Conv) (d : Ex) : Option UInt8 :=
  match argsOf "System`RGBColor" d with
  | some _ => some 255
  | none =>
    match argsOf "System`Opacity" d with
    | some [.flt x] => some (C.chan x)
    | _ => none

/-- The thickness a directive sets. -/
def thicknessOf (C : Conv) (d : Ex) : Option Rat :=
  match argsOf "System`AbsoluteThickness" d with
  | some [.flt x] => some (C.dbl x)
  | _ => none

/-- The style under some directives: each property is what the last directive for it says; without one it is
black, opaque, thickness 0. -/
def penUnder (C : Conv) (ds : List Ex) : Pen :=
  let c := (lastSome (colourOf C) ds).getD (0, 0, 0)
  { r := c.1, g := c.2.1, b := c.2.2, a := (lastSome (alphaOf C) ds).getD 255,
    width := (lastSome (thicknessOf C) ds).getD 0 }

/-- A line through the points with the given coordinates. -/
def lineThrough (pts : List (Rat × Rat)) : Ex :=
  .expr [S "Line", .expr (S "List" :: pts.map (fun p => .expr [S "List", .flt p.1, .flt p.2]))]

/-- What can be drawn: a `Line` must go through points with real coordinates. -/
def LineOk (e : Ex) : Prop := hasHead "System`Line" e = true → ∃ pts, e = lineThrough pts

/-- A directive the renderer knows must have real arguments of the right number. -/
def DirectiveOk (d : Ex) : Prop :=
  (hasHead "System`RGBColor" d = true → ∃ x y z, d = .expr [S "RGBColor", .flt x, .flt y, .flt z]) ∧
  (hasHead "System`Opacity" d = true → ∃ x, d = .expr [S "Opacity", .flt x]) ∧
  (hasHead "System`AbsoluteThickness" d = true → ∃ x, d = .expr [S "AbsoluteThickness", .flt x])

/-- The series of the line that stands at a place. -/
def DrawnAt (C : Conv) (pic : Ex) (p : List Nat) (s : Series) : Prop :=
  ∃ pts, picAt pic p = some (lineThrough pts) ∧
    s = { xs := pts.map (fun q => C.dbl q.1), ys := pts.map (fun q => C.dbl q.2), pen := penUnder C (inForce pic p) }

end Expreduce
