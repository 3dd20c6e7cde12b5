import Verif.Model.Ex

/-!
# Allocation and assignment iterators of the pattern matcher (`/repo/expreduce/matcher/allocations.go`)

The Go code uses explicit stacks; here a stack is a list with its top first. A call `next()` contains a loop without an evident
bound, so it takes fuel: `none` means "no normal return (yet)", which also covers index panics. Machine integers are unbounded here.
-/

namespace Expreduce

/-- `parsedForm` (`matcher/parse_form.go:8-19`). -/
structure ParsedForm where
  startI : Int
  endI : Int
  form : Ex
  isBlank : Bool := false
  isImpliedBs : Bool := false
  isOptional : Bool := false
  defaultExpr : Option Ex := none
  patSym : Option String := none       -- `hasPat`, `patSym`
deriving DecidableEq

/-- `allocIterState` (`allocations.go:10-14`). -/
structure AllocState where
  currForm : Nat
  remaining : Int
  currFormI : Int
deriving DecidableEq

/-- `allocIter` (`allocations.go:16-20`). -/
structure AllocIter where
  forms : List ParsedForm
  alloc : List Int
  stack : List AllocState
deriving DecidableEq

/-- The integers `lo, lo+1, ..., hi`. -/
def intRange (lo hi : Int) : List Int := (List.range (hi + 1 - lo).toNat).map (fun (k : Nat) => lo + (k : Int))

/-- The states pushed for `p` when its form is `f` (`allocations.go:37-61`), top of stack first: for the last form (`isLast`) at most one
state; otherwise optional forms push upwards (so the largest share is tried first), the others downwards. -/
def AllocState.children (p : AllocState) (f : ParsedForm) (isLast : Bool) : List AllocState :=
  if isLast then
    if f.startI ≤ p.remaining ∧ p.remaining ≤ f.endI then [⟨p.currForm + 1, 0, p.remaining⟩] else []
  else
    let up := ((intRange f.startI (min f.endI p.remaining)).filter (fun i => decide (p.remaining - i ≥ 0))).map
      (fun i => (⟨p.currForm + 1, p.remaining - i, i⟩ : AllocState))
    if f.isOptional then up.reverse else up

/-- `ai.alloc[p.currForm-1] = p.currFormI` if `p.currForm-1 >= 0` (`allocations.go:28-30`). -/
def AllocState.write (p : AllocState) (alloc : List Int) : List Int :=
  if p.currForm ≥ 1 then alloc.set (p.currForm - 1) p.currFormI else alloc

/-- `allocIter.next` (`allocations.go:23-65`). -/
def AllocIter.next : Nat → AllocIter → Option (Bool × AllocIter)
  | 0, _ => none
  | n + 1, ai =>
    match ai.stack with
    | [] => some (false, ai)
    | p :: rest =>
      match ai.forms[p.currForm]? with
      | none => some (true, { ai with alloc := p.write ai.alloc, stack := rest })
      | some f =>
        AllocIter.next n { ai with alloc := p.write ai.alloc,
                                   stack := p.children f (decide (p.currForm + 1 ≥ ai.forms.length)) ++ rest }

/-- `newAllocIter` (`allocations.go:67-75`). -/
def newAllocIter (l : Nat) (forms : List ParsedForm) : AllocIter :=
  { forms, alloc := List.replicate forms.length 0, stack := [⟨0, l, 0⟩] }

/-- Everything a caller sees who calls `next()` until it returns false, reading `ai.alloc` each time. -/
def AllocIter.collect : Nat → AllocIter → Option (List (List Int))
  | 0, _ => none
  | n + 1, ai =>
    match ai.next n with
    | none => none
    | some (false, _) => some []
    | some (true, ai') => (ai'.collect n).map (ai'.alloc :: ·)

/-- `assnIterState` (`allocations.go:77-86`); `toFree > -1` is `some`. -/
structure AssnState where
  lastTaken : Nat          -- meaningless (Go: -1) if `assnDataI = 0`
  assnDataI : Nat
  crossedBoundary : Bool
  toFree : Option Nat
deriving DecidableEq

/-- `assnIter` (`allocations.go:88-99`). `assns` are slices of `assnData` (cut by `ai.alloc`), so they are recomputed: `AssnIter.assns`. -/
structure AssnIter where
  assnData : List Nat
  assnIndices : List Nat
  formMatches : List (List Bool)
  orderless : Bool
  taken : List Bool
  stack : List AssnState
  iteratingOrderless : Bool
  ai : AllocIter
deriving DecidableEq

/-- Cut a list into consecutive pieces of the given lengths (`allocations.go:162-169`). -/
def cutBy {α : Type} : List Nat → List α → List (List α)
  | [], _ => []
  | n :: ns, xs => xs.take n :: cutBy ns (xs.drop n)

/-- `asi.assns`: the slices of `assnData` (`allocations.go:164`). -/
def AssnIter.assns (s : AssnIter) : List (List Nat) := cutBy (s.ai.alloc.map Int.toNat) s.assnData

/-- The contents of `assnIndices` after the loop `allocations.go:162-169`: position `j` holds the form it belongs to. -/
def indicesOf : Nat → List Nat → List Nat
  | _, [] => []
  | i, n :: ns => List.replicate n i ++ indicesOf (i + 1) ns

/-- The positions pushed (`allocations.go:137-143`), top of stack first: those not yet taken, at or after `startI`, compatible with the form. -/
def AssnIter.candidates (s : AssnIter) (row : List Bool) (startI : Nat) : List Nat :=
  (List.range s.taken.length).filter fun i =>
    decide (startI ≤ i) && !(s.taken[i]?.getD false) && row[i]?.getD false

/-- `asi.taken[i] = b`. -/
def AssnIter.setTaken (s : AssnIter) (i : Nat) (b : Bool) : AssnIter := { s with taken := s.taken.set i b }

/-- Whether the next position belongs to another form (`allocations.go:123-126`). -/
def AssnIter.willCross (s : AssnIter) (i : Nat) : Bool :=
  match s.assnIndices[i + 1]? with
  | some g => s.assnIndices[i]? != some g
  | none => false

/-- The entry that frees `lastTaken` again (`allocations.go:115-117, 133-135`); pushed only for a position that took something. -/
def AssnState.freeEntry (p : AssnState) : List AssnState :=
  if p.assnDataI > 0 then [⟨0, 0, true, some p.lastTaken⟩] else []

/-- `asi.taken[p.lastTaken] = true; asi.assnData[p.assnDataI-1] = p.lastTaken` (`allocations.go:110-113`). -/
def AssnState.write (p : AssnState) (s : AssnIter) : AssnIter :=
  if p.assnDataI > 0 then
    { s with taken := s.taken.set p.lastTaken true, assnData := s.assnData.set (p.assnDataI - 1) p.lastTaken }
  else s

/-- `assnIter.nextOrderless` (`allocations.go:101-147`). `none` also if `formMatches[formI]` is out of range (a panic in Go). -/
def AssnIter.nextOrderless : Nat → AssnIter → Option (Bool × AssnIter)
  | 0, _ => none
  | n + 1, s =>
    match s.stack with
    | [] => some (false, s)
    | p :: rest =>
      match p.toFree with
      | some i => AssnIter.nextOrderless n { s with taken := s.taken.set i false, stack := rest }
      | none =>
        let s := { p.write s with stack := rest }
        if p.assnDataI ≥ s.assnData.length then
          some (true, { s with stack := p.freeEntry ++ rest })
        else
          match s.assnIndices[p.assnDataI]? with
          | none => none
          | some formI =>
            match s.formMatches[formI]? with
            | none => none
            | some row =>
              let startI := if p.crossedBoundary then 0 else p.lastTaken + 1
              AssnIter.nextOrderless n { s with
                stack := (s.candidates row startI).map (fun i => ⟨i, p.assnDataI + 1, s.willCross p.assnDataI, none⟩)
                  ++ p.freeEntry ++ rest }

/-- The loop over allocations (`allocations.go:154-182`). -/
def AssnIter.nextAlloc : Nat → AssnIter → Option (Bool × AssnIter)
  | 0, _ => none
  | n + 1, s =>
    match s.ai.next n with
    | none => none
    | some (false, ai') => some (false, { s with ai := ai' })
    | some (true, ai') =>
      let idx := indicesOf 0 (ai'.alloc.map Int.toNat)
      let s := { s with ai := ai', assnIndices := idx ++ s.assnIndices.drop idx.length }
      if s.orderless then
        match AssnIter.nextOrderless n { s with stack := ⟨0, 0, true, none⟩ :: s.stack } with
        | none => none
        | some (false, s') => AssnIter.nextAlloc n s'
        | some (true, s') => some (true, { s' with iteratingOrderless := true })
      else some (true, s)

/-- `assnIter.next` (`allocations.go:149-184`). -/
def AssnIter.next (n : Nat) (s : AssnIter) : Option (Bool × AssnIter) :=
  if s.iteratingOrderless then
    match s.nextOrderless n with
    | none => none
    | some (true, s') => some (true, s')
    | some (false, s') => AssnIter.nextAlloc n { s' with iteratingOrderless := false }
  else AssnIter.nextAlloc n s

/-- `newAssnIter` (`allocations.go:186-208`). -/
def newAssnIter (l : Nat) (forms : List ParsedForm) (formMatches : List (List Bool)) (orderless : Bool) : AssnIter :=
  { assnData := List.range l, assnIndices := List.replicate l 0, formMatches, orderless,
    taken := List.replicate l false, stack := [], iteratingOrderless := false, ai := newAllocIter l forms }

/-- Everything a caller sees who calls `next()` until it returns false, reading `asi.assns` each time. -/
def AssnIter.collect : Nat → AssnIter → Option (List (List (List Nat)))
  | 0, _ => none
  | n + 1, s =>
    match s.next n with
    | none => none
    | some (false, _) => some []
    | some (true, s') => (s'.collect n).map (s'.assns :: ·)

end Expreduce
