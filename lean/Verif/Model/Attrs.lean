import Verif.Model.SameQ

/-!
# Attributes (`/repo/pkg/expreduceapi/cas.go`, `/repo/expreduce/atoms/ex_symbol.go:110-248`)
-/

namespace Expreduce
open Ex

/-- `expreduceapi.Attributes` (`pkg/expreduceapi/cas.go:135-155`). -/
structure Attrs where
  orderless : Bool := false
  flat : Bool := false
  oneIdentity : Bool := false
  listable : Bool := false
  constant : Bool := false
  numericFunction : Bool := false
  prot : Bool := false
  locked : Bool := false
  readProtected : Bool := false
  holdFirst : Bool := false
  holdRest : Bool := false
  holdAll : Bool := false
  holdAllComplete : Bool := false
  nHoldFirst : Bool := false
  nHoldRest : Bool := false
  nHoldAll : Bool := false
  sequenceHold : Bool := false
  temporary : Bool := false
  stub : Bool := false
deriving DecidableEq, Repr

/-- One round of the loop of `StringsToAttributes` (`ex_symbol.go:112-170`). -/
def addAttr (a : Attrs) (s : String) : Attrs :=
  let a := if s = "Orderless" then { a with orderless := true } else a
  let a := if s = "Flat" then { a with flat := true } else a
  let a := if s = "OneIdentity" then { a with oneIdentity := true } else a
  let a := if s = "Listable" then { a with listable := true } else a
  let a := if s = "Constant" then { a with constant := true } else a
  let a := if s = "NumericFunction" then { a with numericFunction := true } else a
  let a := if s = "Protected" then { a with prot := true } else a
  let a := if s = "Locked" then { a with locked := true } else a
  let a := if s = "ReadProtected" then { a with readProtected := true } else a
  let a := if s = "HoldFirst" then { a with holdFirst := true } else a
  let a := if s = "HoldRest" then { a with holdRest := true } else a
  let a := if s = "HoldAll" then { a with holdAll := true } else a
  let a := if s = "HoldAllComplete" then { a with holdAllComplete := true } else a
  let a := if s = "NHoldFirst" then { a with nHoldFirst := true } else a
  let a := if s = "NHoldRest" then { a with nHoldRest := true } else a
  let a := if s = "NHoldAll" then { a with nHoldAll := true } else a
  let a := if s = "SequenceHold" then { a with sequenceHold := true } else a
  let a := if s = "Temporary" then { a with temporary := true } else a
  if s = "Stub" then { a with stub := true } else a

/-- `StringsToAttributes` (`ex_symbol.go:110-172`). -/
def stringsToAttributes (l : List String) : Attrs := l.foldl addAttr {}

/-- The names collected by `AttrsToStrings` before sorting (`ex_symbol.go:175-232`). -/
def attrsList (a : Attrs) : List String :=
  (if a.orderless then ["Orderless"] else []) ++ (if a.flat then ["Flat"] else []) ++
  (if a.oneIdentity then ["OneIdentity"] else []) ++ (if a.listable then ["Listable"] else []) ++
  (if a.constant then ["Constant"] else []) ++ (if a.numericFunction then ["NumericFunction"] else []) ++
  (if a.prot then ["Protected"] else []) ++ (if a.locked then ["Locked"] else []) ++
  (if a.readProtected then ["ReadProtected"] else []) ++ (if a.holdFirst then ["HoldFirst"] else []) ++
  (if a.holdRest then ["HoldRest"] else []) ++ (if a.holdAll then ["HoldAll"] else []) ++
  (if a.holdAllComplete then ["HoldAllComplete"] else []) ++ (if a.nHoldFirst then ["NHoldFirst"] else []) ++
  (if a.nHoldRest then ["NHoldRest"] else []) ++ (if a.nHoldAll then ["NHoldAll"] else []) ++
  (if a.sequenceHold then ["SequenceHold"] else []) ++ (if a.temporary then ["Temporary"] else []) ++
  (if a.stub then ["Stub"] else [])

/-- `AttrsToStrings` (`ex_symbol.go:174-236`). `sort.Strings` (library, ascending; the names are ASCII) is a merge sort. -/
def attrsToStrings (a : Attrs) : List String := (attrsList a).mergeSort (fun x y => decide (x ≤ y))

/-- `AttrsToSymList` (`ex_symbol.go:238-246`). -/
def attrsToSymList (a : Attrs) : Ex := .expr (S "List" :: (attrsToStrings a).map S)

end Expreduce
