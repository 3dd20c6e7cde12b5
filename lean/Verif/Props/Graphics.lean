import Verif.Proofs.Graphics

/-! # C95: what a Graphics expression shows -/

namespace Expreduce
open Ex Graphics

/-- **C95, what is drawn.** A rendered chart has one series for every `Line` of the picture, in the order in
which the lines stand in it, through the points of that line and in the style that the directives in force at
that place say: the last colour, opacity and thickness among the directives standing before it in the lists it
is in. Directives inside an inner list have no effect outside it. -/
theorem C95_lines (C : Conv) (e : Ex) (ser : List Series) (h : renderGraphics C e = some ser) :
    ∃ pic rest, e = .expr (S "Graphics" :: pic :: rest) ∧
      ∃ places : List (List Nat), places.Pairwise (· < ·) ∧
        (∀ p, p ∈ places ↔ ∃ a, picAt pic p = some a ∧ hasHead "System`Line" a = true) ∧
        List.Forall₂ (DrawnAt C pic) places ser := by
  unfold renderGraphics at h
  split at h
  · rename_i pic rest he
    split at h
    · cases h
    · rename_i g pen hg
      cases h
      obtain ⟨_, _, places, ser', hs, hm, hf, rfl⟩ := primSome C pic _ _ _ _ hg
      exact ⟨pic, rest, argsOf_some he, places, hs, hm, hf⟩
  · cases h

/-- **C95, when it is drawn.** An expression is rendered exactly if it is `Graphics[picture, …]`, all lines of
the picture go through points with real coordinates and all colours, opacities and thicknesses have real
arguments; everything else in a picture is passed over. -/
theorem C95_renders (C : Conv) (e : Ex) :
    (∃ ser, renderGraphics C e = some ser) ↔
      ∃ pic rest, e = .expr (S "Graphics" :: pic :: rest) ∧
        ∀ p a, picAt pic p = some a → LineOk a ∧ ∀ d ∈ directiveParts a, DirectiveOk d := by
  constructor
  · rintro ⟨ser, h⟩
    unfold renderGraphics at h
    split at h
    · rename_i pic rest he
      split at h
      · cases h
      · rename_i g pen hg
        obtain ⟨_, hok, _⟩ := primSome C pic _ _ _ _ hg
        exact ⟨pic, rest, argsOf_some he, hok⟩
    · cases h
  · rintro ⟨pic, rest, rfl, hok⟩
    obtain ⟨⟨g, pen⟩, hg⟩ := prim_isSome C pic hok [] blackPen
    have ha : argsOf "System`Graphics" (.expr (S "Graphics" :: pic :: rest)) = some (pic :: rest) := argsOf_expr _ _
    exact ⟨g, by simp only [renderGraphics, ha, hg]⟩

/-- **C95, exact numbers are refused.** A picture with a line through a point with an exact coordinate cannot be
exported at all, although the coordinate is a number: `ExportString` gives `$Failed`. -/
theorem C95_exact_fails (C : Conv) (low : String → String) (draw : List Series → Option String) (b64 : String → String)
    (hlow : low "PNG" = "png") (pic : Ex) (p : List Nat) (before after : List Ex) (n : Int) (y : Ex)
    (h : picAt pic p = some (.expr [S "Line", .expr (S "List" :: before ++ .expr [S "List", .int n, y] :: after)])) :
    exportStringFn C low draw b64 [S "ExportString", .expr [S "Graphics", pic], .str "PNG"] = some (S "$Failed") := by
  have hr : renderGraphics C (.expr [S "Graphics", pic]) = none := by
    cases hq : renderGraphics C (.expr [S "Graphics", pic]) with
    | none => rfl
    | some ser =>
      exfalso
      obtain ⟨pic', rest, he, hok⟩ := (C95_renders C _).1 ⟨ser, hq⟩
      simp only [Ex.expr.injEq, List.cons.injEq, true_and] at he
      obtain ⟨rfl, rfl⟩ := he
      obtain ⟨pts, hp⟩ := (hok p _ h).1 rfl
      simp only [lineThrough, Ex.expr.injEq, List.cons.injEq, true_and, and_true, List.cons_append] at hp
      have hm : Ex.expr [S "List", .int n, y] ∈ before ++ Ex.expr [S "List", .int n, y] :: after := by simp
      rw [hp] at hm
      obtain ⟨q, _, hq⟩ := List.mem_map.1 hm
      simp at hq
  simp [exportStringFn, hlow, hr]

/-- **C95, export.** `ExportString[g, "png"]` hands exactly the rendered chart to the drawing library and gives
its answer. -/
theorem C95_export (C : Conv) (low : String → String) (draw : List Series → Option String) (b64 : String → String)
    (format : String) (hlow : low format = "png") (e : Ex) (ser : List Series) (h : renderGraphics C e = some ser)
    (png : String) (hd : draw ser = some png) :
    exportStringFn C low draw b64 [S "ExportString", e, .str format] = some (.str png) := by
  simp [exportStringFn, hlow, h, hd]

/-! ### A picture with nested lists -/

/-- Conversions for the example. -/
def exConv : Conv := { chan := fun v => UInt8.ofNat (v * 255).floor.toNat, dbl := id }

/-- `{{Directive[RGBColor[1., 0., 0.]], Line[{{0., 0.}, {1., 2.}}]}, Line[{{3., 4.}}]}`. -/
def exPicture : Ex := listEx
  [listEx [.expr [S "Directive", .expr [S "RGBColor", .flt 1, .flt 0, .flt 0], .expr [S "Opacity", .flt (1/2)]],
      lineThrough [(0, 0), (1, 2)]],
    S "Automatic", lineThrough [(3, 4)]]
where
  /-- A list expression. -/
  listEx (es : List Ex) : Ex := .expr (S "List" :: es)

/-- Both lines are drawn; the colour does not leave the inner list. -/
theorem C95_example : renderGraphics exConv (.expr [S "Graphics", exPicture]) =
    some [{ xs := [0, 1], ys := [0, 2], pen := { r := 255, g := 0, b := 0, a := 127, width := 0 } },
      { xs := [3], ys := [4], pen := { r := 0, g := 0, b := 0, a := 255, width := 0 } }] := by decide +kernel

/-- The hypothesis of `C95_exact_fails` is met: `Graphics[{Line[{{0., 0.}, {1, 1.}}]}]`. -/
example : picAt (.expr [S "List", .expr [S "Line", .expr [S "List", .expr [S "List", .flt 0, .flt 0],
      .expr [S "List", .int 1, .flt 1]]]]) [0] =
    some (.expr [S "Line", .expr (S "List" :: [Ex.expr [S "List", .flt 0, .flt 0]] ++ .expr [S "List", .int 1, .flt 1] :: [])]) := by
  decide +kernel

end Expreduce
