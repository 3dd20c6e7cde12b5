import Verif.Spec.Truth

/-! Laws of truth values. -/

namespace Expreduce
open Ex
namespace Truth
variable {W : Type}

/-- The value `x`, if there is one, is `y`. -/
def Le (x y : Truth W) : Prop := x = .none ∨ x = y

theorem Le.refl (x : Truth W) : Le x x := .inr rfl
theorem Le.none (y : Truth W) : Le .none y := .inl rfl

theorem Le.trans {x y z : Truth W} (h : Le x y) (h' : Le y z) : Le x z := by
  rcases h with rfl | rfl
  · exact .none _
  · exact h'
theorem Le.trans_eq {x y z : Truth W} (h : Le x y) (h' : y = z) : Le x z := h' ▸ h

/-- `And` or `Or` as an operation on two values. -/
structure Op (f : Truth W → Truth W → Truth W) (u : Truth W) : Prop where
  comm : ∀ x y, f x y = f y x
  assoc : ∀ x y z, f (f x y) z = f x (f y z)
  unit : ∀ x, f u x = x
  strict : ∀ x, f .none x = .none

theorem and2_op : Op (W := W) and2 (.bool true) where
  comm x y := by rcases x with (_ | _) | _ | _ <;> rcases y with (_ | _) | _ | _ <;> rfl
  assoc x y z := by rcases x with (_ | _) | _ | _ <;> rcases y with (_ | _) | _ | _ <;> rcases z with (_ | _) | _ | _ <;> rfl
  unit x := by rcases x with (_ | _) | _ | _ <;> rfl
  strict x := by rcases x with (_ | _) | _ | _ <;> rfl

theorem or2_op : Op (W := W) or2 (.bool false) where
  comm x y := by rcases x with (_ | _) | _ | _ <;> rcases y with (_ | _) | _ | _ <;> rfl
  assoc x y z := by rcases x with (_ | _) | _ | _ <;> rcases y with (_ | _) | _ | _ <;> rcases z with (_ | _) | _ | _ <;> rfl
  unit x := by rcases x with (_ | _) | _ | _ <;> rfl
  strict x := by rcases x with (_ | _) | _ | _ <;> rfl

theorem Op.mono {f : Truth W → Truth W → Truth W} {u : Truth W} (h : Op f u) {x x' y y' : Truth W} (hx : Le x x') (hy : Le y y') : Le (f x y) (f x' y') := by
  rcases hx with rfl | rfl
  · rw [h.strict]; exact .none _
  · rcases hy with rfl | rfl
    · rw [h.comm, h.strict]; exact .none _
    · exact .refl _

/-- The two operations `f` and `g`; `r` is the value that `f` gives for a contradiction (`Or`: true). -/
structure Dual (f g : Truth W → Truth W → Truth W) (r : Bool) : Prop where
  absorb : ∀ x q, Le (f x (g q x)) x
  idem : ∀ x, Le (f x x) x
  drop : ∀ x q, Le (f x (g q (not1 x))) (f x q)
  contra : ∀ x q, Le (f x (not1 (g q x))) (.bool r)
  self : ∀ x, Le (f x (not1 x)) (.bool r)
  top : ∀ x, Le (f x (.bool r)) (.bool r)

theorem or_and : Dual (W := W) or2 and2 true where
  absorb x q := by rcases x with (_ | _) | _ | _ <;> rcases q with (_ | _) | _ | _ <;> first | exact .inl rfl | exact .inr rfl
  idem x := by rcases x with (_ | _) | _ | _ <;> first | exact .inl rfl | exact .inr rfl
  drop x q := by rcases x with (_ | _) | _ | _ <;> rcases q with (_ | _) | _ | _ <;> first | exact .inl rfl | exact .inr rfl
  contra x q := by rcases x with (_ | _) | _ | _ <;> rcases q with (_ | _) | _ | _ <;> first | exact .inl rfl | exact .inr rfl
  self x := by rcases x with (_ | _) | _ | _ <;> first | exact .inl rfl | exact .inr rfl
  top x := by rcases x with (_ | _) | _ | _ <;> first | exact .inl rfl | exact .inr rfl

theorem and_or : Dual (W := W) and2 or2 false where
  absorb x q := by rcases x with (_ | _) | _ | _ <;> rcases q with (_ | _) | _ | _ <;> first | exact .inl rfl | exact .inr rfl
  idem x := by rcases x with (_ | _) | _ | _ <;> first | exact .inl rfl | exact .inr rfl
  drop x q := by rcases x with (_ | _) | _ | _ <;> rcases q with (_ | _) | _ | _ <;> first | exact .inl rfl | exact .inr rfl
  contra x q := by rcases x with (_ | _) | _ | _ <;> rcases q with (_ | _) | _ | _ <;> first | exact .inl rfl | exact .inr rfl
  self x := by rcases x with (_ | _) | _ | _ <;> first | exact .inl rfl | exact .inr rfl
  top x := by rcases x with (_ | _) | _ | _ <;> first | exact .inl rfl | exact .inr rfl

theorem deMorgan (x y : Truth W) : Le (or2 (not1 x) (not1 y)) (not1 (and2 x y)) := by
  rcases x with (_ | _) | _ | _ <;> rcases y with (_ | _) | _ | _ <;> first | exact .inl rfl | exact .inr rfl

theorem factor (a b c : Truth W) : Le (and2 (or2 a b) (or2 a c)) (or2 a (and2 b c)) := by
  rcases a with (_ | _) | _ | _ <;> rcases b with (_ | _) | _ | _ <;> rcases c with (_ | _) | _ | _ <;> first | exact .inl rfl | exact .inr rfl

end Truth

namespace TruthInterp
variable {W : Type} {V : TruthInterp W}

/-- `f` with the unit `u` is the meaning of the function `s`. -/
structure Is (V : TruthInterp W) (s : String) (f : Truth W → Truth W → Truth W) (u : Truth W) : Prop where
  op : Truth.Op f u
  fold : ∀ xs, V.meaning.op s xs = xs.foldr f u

theorem is_and : Is V "System`And" Truth.and2 (.bool true) := ⟨Truth.and2_op, fun xs => by simp [meaning, opValue]⟩
theorem is_or : Is V "System`Or" Truth.or2 (.bool false) := ⟨Truth.or2_op, fun xs => by simp [meaning, opValue]⟩

theorem op_not (x : Truth W) : V.meaning.op "System`Not" [x] = x.not1 := by simp [meaning, opValue]

theorem Is.nil {s f u} (h : Is V s f u) : V.meaning.op s [] = u := by rw [h.fold]; rfl
theorem Is.one {s f u} (h : Is V s f u) (x : Truth W) : V.meaning.op s [x] = x := by
  rw [h.fold]; simp only [List.foldr]; rw [h.op.comm, h.op.unit]
theorem Is.append {s f u} (h : Is V s f u) (xs ys : List (Truth W)) : V.meaning.op s (xs ++ ys) = f (V.meaning.op s xs) (V.meaning.op s ys) := by
  simp only [h.fold]
  induction xs with
  | nil => simp [h.op.unit]
  | cons x xs ih => simp only [List.cons_append, List.foldr, ih, h.op.assoc]
theorem Is.cons {s f u} (h : Is V s f u) (x : Truth W) (ys : List (Truth W)) : V.meaning.op s (x :: ys) = f x (V.meaning.op s ys) := by
  simp only [h.fold, List.foldr]
theorem Is.flat {s f u} (h : Is V s f u) (xs ys zs : List (Truth W)) : V.meaning.op s (xs ++ V.meaning.op s ys :: zs) = V.meaning.op s (xs ++ (ys ++ zs)) := by
  rw [h.append, h.append, h.append, h.cons]

/-- Calls of functions keep the relation. -/
theorem op_mono (s : String) (xs ys : List (Truth W)) (h : List.Forall₂ Truth.Le xs ys) : Truth.Le (V.meaning.op s xs) (V.meaning.op s ys) := by
  have hfold : ∀ {f : Truth W → Truth W → Truth W} {u : Truth W}, Truth.Op f u → Truth.Le (xs.foldr f u) (ys.foldr f u) := by
    intro f u hf
    clear s
    induction h with
    | nil => exact .refl _
    | cons h _ ih => exact hf.mono h ih
  show Truth.Le (V.opValue s xs) (V.opValue s ys)
  unfold opValue
  split
  · exact hfold Truth.and2_op
  · split
    · exact hfold Truth.or2_op
    · split
      · cases h with
        | nil => exact .refl _
        | cons h t =>
          cases t with
          | nil => rcases h with rfl | rfl
                   · exact .none _
                   · exact .refl _
          | cons => exact .none _
      · have : xs = ys ∨ xs.any Truth.missing = true := by
          clear hfold
          induction h with
          | nil => exact .inl rfl
          | cons h _ ih =>
            rcases h with rfl | rfl
            · right; simp [Truth.missing]
            · rcases ih with rfl | ih
              · exact .inl rfl
              · right; simp [ih]
        rcases this with rfl | h'
        · exact .refl _
        · rw [if_pos h']; exact .none _

theorem lawful {env : MEnv} (hE : BoolEnv env) {s : String} (hs : s ∈ boolHeads) : V.meaning.Lawful env s := by
  have hp := hE.plain s hs
  refine ⟨?_, fun h => ?_, ?_, fun d h => ?_⟩
  · intro hf xs ys zs
    simp only [boolHeads, List.mem_cons, List.not_mem_nil, or_false] at hs
    rcases hs with rfl | rfl | rfl
    · exact is_and.flat _ _ _
    · exact is_or.flat _ _ _
    · rw [hE.not.1] at hf; cases hf
  · rw [hp.1] at h; cases h
  · intro ho x
    simp only [boolHeads, List.mem_cons, List.not_mem_nil, or_false] at hs
    rcases hs with rfl | rfl | rfl
    · exact is_and.one _
    · exact is_or.one _
    · rw [hE.not.2] at ho; cases ho
  · rw [hp.2] at h; cases h
end TruthInterp

theorem keepsTruth_of {W : Type} {V : TruthInterp W} {e e' : Ex} (h : List.Forall₂ Truth.Le (V.meaning.argVals e) (V.meaning.argVals e')) : KeepsTruth V e e' := by
  intro v hv
  obtain ⟨h1, h2⟩ := hv
  rw [h1] at h
  generalize hl : V.meaning.argVals e' = l at h
  cases h with
  | cons h t =>
    cases t
    rcases h with rfl | rfl
    · exact absurd rfl h2
    · exact ⟨hl, h2⟩

end Expreduce
