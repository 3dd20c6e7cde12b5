import Verif.Model.Lists

/-!
# Streams (`/repo/expreduce/streammanager/streammanager.go`) and timing counters (`/repo/expreduce/timecounter/timecounter.go`)
-/

namespace Expreduce
open Ex

/-- The two writers of the operating system a stream can lead to (`os.Stdout`, `os.Stderr`). -/
inductive Fd where
  | out
  | err
deriving DecidableEq

/-- What has been written so far. The library's `Write` is assumed to append all bytes and to report no error. -/
abbrev Written := Fd → String

/-- `streamKey` (`streammanager.go:13-16`). -/
structure StreamKey where
  id : Int
  name : String
deriving DecidableEq

/-- The map of `NewStreamManager` (`streammanager.go:24-30`); nothing ever changes it. -/
def openStreams : List (StreamKey × Fd) := [({ id := 1, name := "stdout" }, .out), ({ id := 2, name := "stderr" }, .err)]

/-- `fillMissingIndex` (`streammanager.go:32-40`). -/
def fillMissingIndex (k : StreamKey) : StreamKey :=
  if k.id = -1 then
    if k.name = "stdout" then { k with id := 1 }
    else if k.name = "stdin" then { k with id := 2 }
    else k
  else k

/-- The lookup in the map. -/
def writerOf (k : StreamKey) : Option Fd := (openStreams.find? (fun p => p.1 == k)).map Prod.snd

/-- `WriteString` of the stream manager (`streammanager.go:42-56`). -/
def smWrite (w : Written) (name : String) (idx : Int) (s : String) : Written × Bool :=
  match writerOf (fillMissingIndex { id := idx, name := name }) with
  | none => (w, false)
  | some fd => ((fun g => if g = fd then w g ++ s else w g), true)

/-- `AsExpr` (`streammanager.go:58-79`), the list being in the order of the ids. -/
def streamsExpr : Ex := .expr (S "List" :: openStreams.map (fun p => .expr [S "OutputStream", .str p.1.name, .int p.1.id]))

/-- `parseOutputStream` (`builtin_system.go:270-297`). -/
def parseOutputStream (e : Ex) : Option (String × Int) :=
  match e with
  | .str s => some (s, -1)
  | e =>
    match argsOf "System`OutputStream" e with
    | some [.str s, .int n] => some (s, wrap64 n)
    | _ => none

/-- The builtin `WriteString` (`builtin_system.go:1042-1065`): what has been written, and the value. -/
def writeStringFn (w : Written) (ps : List Ex) : Written × Ex :=
  match ps with
  | [_, e, s] =>
    match parseOutputStream e with
    | none => (w, .expr ps)
    | some (name, idx) =>
      match s with
      | .str t => ((smWrite w name idx t).1, S "Null")
      | _ => (w, .expr ps)
  | _ => (w, .expr ps)

/-- The builtin `Streams` (`builtin_system.go:1066-1075`). -/
def streamsFn (ps : List Ex) : Ex :=
  match ps with
  | [_] => streamsExpr
  | _ => .expr ps

/-! ## Timing -/

/-- `timeCounter` (`timecounter.go:11-17`): the two maps, the first one with its keys in the order in which an iteration visits them. Times are elements
of a type with an addition, so that rounding plays no role. -/
structure Counter (T : Type) where
  times : List (String × T) := []
  counts : List (String × Int) := []

/-- `m[key] += v` for a map given as a list: the value of a missing key is zero. -/
def bumpKey {V : Type} [Add V] [Zero V] (key : String) (v : V) : List (String × V) → List (String × V)
  | [] => [(key, 0 + v)]
  | (k, u) :: l => if k = key then (k, u + v) :: l else (k, u) :: bumpKey key v l

/-- `addTime` (`timecounter.go:24-27`). -/
def Counter.addTime {T : Type} [Add T] [Zero T] (c : Counter T) (key : String) (t : T) : Counter T :=
  { times := bumpKey key t c.times, counts := bumpKey key 1 c.counts }

/-- `update` (`timecounter.go:29-33`); `order` are the entries of `other.times` in the order of the iteration. -/
def Counter.update {T : Type} [Add T] [Zero T] (c : Counter T) (order : List (String × T)) : Counter T :=
  order.foldl (fun c kv => c.addTime kv.1 kv.2) c

/-- The counters of a `Group` (`timecounter.go:70-89`). -/
inductive CounterId where
  | defTime
  | lhsDefTime
  | evalTime
  | headEvalTime
deriving DecidableEq

/-- `Group` (`timecounter.go:83-89`). -/
structure TimeGroup (T : Type) where
  defTime : Counter T := {}
  lhsDefTime : Counter T := {}
  evalTime : Counter T := {}
  headEvalTime : Counter T := {}

/-- The counter of a group. -/
def TimeGroup.at {T : Type} (g : TimeGroup T) : CounterId → Counter T
  | .defTime => g.defTime
  | .lhsDefTime => g.lhsDefTime
  | .evalTime => g.evalTime
  | .headEvalTime => g.headEvalTime

/-- `AddTime` (`timecounter.go:99-115`). -/
def TimeGroup.addTime {T : Type} [Add T] [Zero T] (g : TimeGroup T) (c : CounterId) (key : String) (t : T) : TimeGroup T :=
  match c with
  | .defTime => { g with defTime := g.defTime.addTime key t }
  | .lhsDefTime => { g with lhsDefTime := g.lhsDefTime.addTime key t }
  | .evalTime => { g with evalTime := g.evalTime.addTime key t }
  | .headEvalTime => { g with headEvalTime := g.headEvalTime.addTime key t }

/-- `Update` (`timecounter.go:117-123`); `order c` is the order in which the iteration over the times of counter `c` of `other` visits them. -/
def TimeGroup.update {T : Type} [Add T] [Zero T] (g : TimeGroup T) (order : CounterId → List (String × T)) : TimeGroup T :=
  { defTime := g.defTime.update (order .defTime),
    lhsDefTime := g.lhsDefTime.update (order .lhsDefTime),
    evalTime := g.evalTime.update (order .evalTime),
    headEvalTime := g.headEvalTime.update (order .headEvalTime) }

/-- A line of the report: time, count, key (`timecounter.go:53`). -/
structure Line (T : Type) where
  time : T
  count : Int
  key : String
deriving DecidableEq

/-- The value of a key in a map of counts; a missing key counts zero. -/
def countOf (counts : List (String × Int)) (key : String) : Int := ((counts.find? (fun p => p.1 == key)).map Prod.snd).getD 0

/-- The lines of the keys with the time `t` (`timecounter.go:51-55`), in the order in which they were collected. -/
def linesAt {T : Type} [DecidableEq T] (c : Counter T) (t : T) : List (Line T) :=
  (c.times.filter (fun p => p.2 = t)).map (fun p => { time := t, count := countOf c.counts p.1, key := p.1 })

/-- The loop `timecounter.go:46-56` over the different times, greatest first. -/
def reportLoop {T : Type} [DecidableEq T] (c : Counter T) (n : Nat) : Nat → List T → List (Line T)
  | _, [] => []
  | printed, t :: ts => if printed ≥ n then [] else linesAt c t ++ reportLoop c n (printed + (linesAt c t).length) ts

/-- `truncatedString` (`timecounter.go:35-58`) as the list of its lines; `sorted` are the different times as `sort.Sort` leaves them. -/
def report {T : Type} [DecidableEq T] (c : Counter T) (n : Nat) (sorted : List T) : List (Line T) := reportLoop c n 0 sorted

end Expreduce
