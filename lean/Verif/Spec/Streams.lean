import Verif.Model.Streams

/-! Which output stream a description addresses; the totals a history of timing calls should have. -/

namespace Expreduce
open Ex

/-- The stream a user addresses with the first argument of `WriteString`. -/
def addressee (e : Ex) : Option Fd :=
  if e = .str "stdout" ∨ e = .expr [S "OutputStream", .str "stdout", .int 1] then some .out
  else if e = .str "stderr" ∨ e = .expr [S "OutputStream", .str "stderr", .int 2] then some .err
  else none

/-- The text a call of `WriteString` should deliver to `fd`. -/
def textFor (fd : Fd) : List Ex → String
  | [_, e, .str s] => if addressee e = some fd then s else ""
  | _ => ""

/-- Everything a history of calls should deliver to `fd`, in order. -/
def textsFor (fd : Fd) : List (List Ex) → String
  | [] => ""
  | c :: cs => textFor fd c ++ textsFor fd cs

/-- The contents after a history of calls of `WriteString`. -/
def afterCalls (w : Written) (calls : List (List Ex)) : Written := calls.foldl (fun w ps => (writeStringFn w ps).1) w

/-- A history of a group of timing counters: time added to a counter under a key, and the merging of the group of another history. -/
inductive Timings (T : Type) where
  | empty
  | add (h : Timings T) (c : CounterId) (key : String) (t : T)
  | merge (h other : Timings T)

/-- The total time of a key. -/
def Timings.total {T : Type} [Add T] [Zero T] (c : CounterId) (key : String) : Timings T → T
  | .empty => 0
  | .add h d k t => if d = c ∧ k = key then h.total c key + t else h.total c key
  | .merge h o => h.total c key + o.total c key

/-- The number of times something was added to a key. -/
def Timings.calls {T : Type} (c : CounterId) (key : String) : Timings T → Int
  | .empty => 0
  | .add h d k _ => if d = c ∧ k = key then h.calls c key + 1 else h.calls c key
  | .merge h o => h.calls c key + o.calls c key

/-- Nothing was merged. -/
def Timings.plain {T : Type} : Timings T → Prop
  | .empty => True
  | .add h _ _ _ => h.plain
  | .merge _ _ => False

/-- The groups a history can lead to: the order in which an update visits the entries is not fixed. -/
inductive Reaches {T : Type} [Add T] [Zero T] : Timings T → TimeGroup T → Prop
  | empty : Reaches .empty {}
  | add {h : Timings T} {g : TimeGroup T} (c : CounterId) (key : String) (t : T) : Reaches h g → Reaches (.add h c key t) (g.addTime c key t)
  | merge {h o : Timings T} {g g' : TimeGroup T} (order : CounterId → List (String × T)) : Reaches h g → Reaches o g' →
      (∀ c, (order c).Perm (g'.at c).times) → Reaches (.merge h o) (g.update order)

/-- The time shown for a key, zero if there is none. -/
def Counter.time {T : Type} [Zero T] (c : Counter T) (key : String) : T := ((c.times.find? (fun p => p.1 == key)).map Prod.snd).getD 0

end Expreduce
