import Verif.Model.Match

/-!
# Rendering of Graphics (`/repo/expreduce/graphics/graphics.go`)

What is modelled is the step from the expression to the chart (the list of series with their styles) that is
handed to the drawing library. The drawing of the chart itself (`graph.Render(chart.PNG, …)`) is the library's.
-/

namespace Expreduce
open Ex

/-- The part of `chart.Style` the code sets: `StrokeColor` (red, green, blue, alpha) and `StrokeWidth`. -/
structure Pen where
  r : UInt8
  g : UInt8
  b : UInt8
  a : UInt8
  width : Rat
deriving DecidableEq, Repr

/-- `chart.ContinuousSeries`: coordinates and style. -/
structure Series where
  xs : List Rat
  ys : List Rat
  pen : Pen
deriving DecidableEq, Repr

/-- The conversions of machine numbers, kept as parameters: `chan v` is `uint8(float32(v)*255)`
(`graphics.go:72-73, 95-96`), `dbl v` is `Val.Float64()` (`graphics.go:27-28, 113`). -/
structure Conv where
  chan : Rat → UInt8
  dbl : Rat → Rat

/-- `listToPoint` (`graphics.go:14-30`); `none` is an error. -/
def listToPoint (C : Conv) (e : Ex) : Option (Rat × Rat) :=
  match argsOf "System`List" e with
  | some [.flt x, .flt y] => some (C.dbl x, C.dbl y)
  | _ => none

/-- The loop over the points (`graphics.go:50-57`): appends to `XValues` and `YValues`. -/
def pointLoop (C : Conv) : List Ex → Series → Option Series
  | [], s => some s
  | p :: ps, s =>
    match listToPoint C p with
    | none => none
    | some (x, y) => pointLoop C ps { s with xs := s.xs ++ [x], ys := s.ys ++ [y] }

/-- `renderLine` (`graphics.go:32-60`); `args` are the arguments of `Line`. -/
def renderLine (C : Conv) (graph : List Series) (args : List Ex) (pen : Pen) : Option (List Series) :=
  match args with
  | [e] =>
    match argsOf "System`List" e with
    | none => none
    | some points =>
      match pointLoop C points { xs := [], ys := [], pen := pen } with
      | none => none
      | some s => some (graph ++ [s])
  | _ => none

/-- `setColor` (`graphics.go:62-86`). The three assignments of the loop are done at once: if a component is
not a real the code has changed a part of a style that is then thrown away with the error. -/
def setColor (C : Conv) (args : List Ex) (pen : Pen) : Option Pen :=
  match args with
  | [.flt x, .flt y, .flt z] => some { pen with r := C.chan x, g := C.chan y, b := C.chan z, a := 255 }
  | _ => none

/-- `setOpacity` (`graphics.go:88-100`). -/
def setOpacity (C : Conv) (args : List Ex) (pen : Pen) : Option Pen :=
  match args with
  | [.flt x] => some { pen with a := C.chan x }
  | _ => none

/-- `setAbsoluteThickness` (`graphics.go:102-118`). -/
def setThickness (C : Conv) (args : List Ex) (pen : Pen) : Option Pen :=
  match args with
  | [.flt x] => some { pen with width := C.dbl x }
  | _ => none

/-- `setDirective` (`graphics.go:120-142`); the message about an unknown directive is not modelled. -/
def setDirective (C : Conv) (pen : Pen) (d : Ex) : Option Pen :=
  match argsOf "System`RGBColor" d with
  | some args => setColor C args pen
  | none =>
    match argsOf "System`Opacity" d with
    | some args => setOpacity C args pen
    | none =>
      match argsOf "System`AbsoluteThickness" d with
      | some args => setThickness C args pen
      | none => some pen

/-- The loop over the parts of a `Directive` (`graphics.go:162-167`). -/
def setDirectives (C : Conv) : List Ex → Pen → Option Pen
  | [], pen => some pen
  | d :: ds, pen =>
    match setDirective C pen d with
    | none => none
    | some pen' => setDirectives C ds pen'

mutual
/-- `renderPrimitive` (`graphics.go:144-177`): the series collected so far and the style (a pointer in the code)
after the call; a list works on a copy of the style. The message about a skipped primitive is not modelled;
`HeadAssertion` panics on an expression without parts, which is skipped here. -/
def renderPrimitive (C : Conv) : Ex → List Series → Pen → Option (List Series × Pen)
  | .expr (.sym s :: args), graph, pen =>
    if s = "System`List" then
      match renderAll C args graph pen with
      | none => none
      | some (graph', _) => some (graph', pen)
    else if s = "System`Directive" then
      match setDirectives C args pen with
      | none => none
      | some pen' => some (graph, pen')
    else if s = "System`Line" then
      match renderLine C graph args pen with
      | none => none
      | some graph' => some (graph', pen)
    else some (graph, pen)
  | _, graph, pen => some (graph, pen)
/-- The loop over the elements of a list (`graphics.go:154-160`), all with the same `newStyle`. -/
def renderAll (C : Conv) : List Ex → List Series → Pen → Option (List Series × Pen)
  | [], graph, pen => some (graph, pen)
  | e :: es, graph, pen =>
    match renderPrimitive C e graph pen with
    | none => none
    | some (graph', pen') => renderAll C es graph' pen'
end

/-- The initial style (`graphics.go:206-209`): black, opaque, `StrokeWidth` 0. -/
def blackPen : Pen := { r := 0, g := 0, b := 0, a := 255, width := 0 }

/-- `Render` (`graphics.go:180-216`): the series of the chart, `none` if an error is returned. -/
def renderGraphics (C : Conv) (e : Ex) : Option (List Series) :=
  match argsOf "System`Graphics" e with
  | some (prim :: _) =>
    match renderPrimitive C prim [] blackPen with
    | none => none
    | some (graph, _) => some graph
  | _ => none

/-- `ExportString[e, format]` (`builtin_string.go:140-173`, `graphics.go:219-231`): `png` draws the chart (the
drawing library `draw` may fail, and then `$Failed` is returned as for every other error), `base64` is the
library's encoding. `low` is `strings.ToLower`. -/
def exportStringFn (C : Conv) (low : String → String) (draw : List Series → Option String) (base64 : String → String)
    (ps : List Ex) : Option Ex :=
  match ps with
  | _ :: e :: .str format :: rest =>
    if rest.length ≤ 1 then
      if low format = "png" then
        match renderGraphics C e with
        | none => some (S "$Failed")
        | some graph =>
          match draw graph with
          | none => some (S "$Failed")
          | some s => some (.str s)
      else
        match e with
        | .str s => if low format = "base64" then some (.str (base64 s ++ "\n")) else some (S "$Failed")
        | _ => none
    else none
  | _ => none

end Expreduce
