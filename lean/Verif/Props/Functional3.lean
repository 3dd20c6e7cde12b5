import Verif.Props.Functional2

/-! Property C76 (Flatten). -/

namespace Expreduce
open Ex

/-! ### C76: Flatten -/

/-- The heads of the compound subexpressions of the arguments that are the same as `h` are equal to `h`. -/
def HeadsExact (h : Ex) (as : List Ex) : Prop :=
  ∀ a ∈ as, ∀ h' bs, (.expr (h' :: bs) = a ∨ .expr (h' :: bs) ∈ Headed.subs a) → (isSameQ h h' = true ↔ h' = h)

theorem HeadsExact.part {h : Ex} {as bs : List Ex} {h' : Ex} (hx : HeadsExact h as) (ha : .expr (h' :: bs) ∈ as) : HeadsExact h bs :=
  fun b hb h'' cs hc => hx _ ha h'' cs (.inr (sub_of_part (List.mem_cons_of_mem _ hb) hc))

theorem spliceOnce_append (h : Ex) (as bs : List Ex) : spliceOnce h (as ++ bs) = spliceOnce h as ++ spliceOnce h bs := by
  simp [spliceOnce]

theorem splice_append (h : Ex) : ∀ (n : Nat) (as bs : List Ex), (spliceOnce h)^[n] (as ++ bs) = (spliceOnce h)^[n] as ++ (spliceOnce h)^[n] bs
  | 0, _, _ => rfl
  | n + 1, as, bs => by rw [Function.iterate_succ_apply, spliceOnce_append, splice_append h n]; rfl

theorem splice_nil (h : Ex) : ∀ n : Nat, (spliceOnce h)^[n] [] = []
  | 0 => rfl
  | n + 1 => by rw [Function.iterate_succ_apply]; exact splice_nil h n

/-- What one round makes of an element. -/
def spliceElem (h a : Ex) : List Ex :=
  match a with
  | .expr (h' :: bs) => if h' = h then bs else [a]
  | a => [a]

theorem spliceOnce_cons (h a : Ex) (as : List Ex) : spliceOnce h (a :: as) = spliceElem h a ++ spliceOnce h as := by
  unfold spliceOnce spliceElem
  rw [List.flatMap_cons]
  rfl

theorem splice_fix {h a : Ex} (ha : spliceElem h a = [a]) : ∀ n : Nat, (spliceOnce h)^[n] [a] = [a]
  | 0 => rfl
  | n + 1 => by
    rw [Function.iterate_succ_apply, spliceOnce_cons, ha]
    show (spliceOnce h)^[n] ([a] ++ []) = [a]
    rw [List.append_nil, splice_fix ha n]

mutual
theorem flattenPart_eq {h : Ex} : ∀ (a : Ex) (n : Nat), HeadsExact h [a] → Headed a → flattenPart h n a = some ((spliceOnce h)^[n] [a])
  | .expr ps, 0, _, _ => by simp [flattenPart]
  | .expr [], n + 1, _, hh => absurd rfl (hh _ (.inl rfl))
  | .expr (h' :: bs), n + 1, hx, hh => by
    have hiff := hx (.expr (h' :: bs)) (by simp) h' bs (.inl rfl)
    rw [flattenPart, if_pos (by omega), flattenSub]
    by_cases e : h' = h
    · rw [if_pos (hiff.2 e)]
      subst e
      rw [show ((n + 1 : Nat) : Int) - 1 = (n : Int) by omega, flattenArgs_eq bs n (HeadsExact.part (h' := h') hx (by simp)) (fun b hb => hh.parts.2 b (List.mem_cons_of_mem _ hb)),
        Function.iterate_succ_apply, spliceOnce_cons]
      simp [spliceElem, spliceOnce]
    · rw [if_neg (fun h => e (hiff.1 h)), splice_fix (by simp [spliceElem, e])]
  | .sym _, n, _, _ | .str _, n, _, _ | .int _, n, _, _ | .rat _ _, n, _, _ | .flt _, n, _, _ | .cplx _ _, n, _, _ => by
    rw [splice_fix rfl]
    simp [flattenPart]
theorem flattenArgs_eq {h : Ex} : ∀ (as : List Ex) (n : Nat), HeadsExact h as → (∀ a ∈ as, Headed a) → flattenArgs h n as = some ((spliceOnce h)^[n] as)
  | [], n, _, _ => by rw [splice_nil]; simp [flattenArgs]
  | a :: as, n, hx, hh => by
    rw [flattenArgs, flattenPart_eq a n (fun b hb => hx b (by simp at hb; simp [hb])) (hh a (by simp)), Option.bind_some,
      flattenArgs_eq as n (fun b hb => hx b (List.mem_cons_of_mem _ hb)) (fun b hb => hh b (List.mem_cons_of_mem _ hb))]
    rw [show a :: as = [a] ++ as from rfl, splice_append]
    rfl
end

/-- C76. `Flatten[h[as], n]` for `0 ≤ n < 2⁶³` is the result of `n` rounds of splicing arguments with head `h`. -/
theorem C76_levels (P h : Ex) (as : List Ex) (n : Nat) (hn : (n : Int) < 2 ^ 63) (hx : HeadsExact h as) (hh : ∀ a ∈ as, Headed a) :
    flattenFn [P, .expr (h :: as), .int n] = some (.expr (h :: (spliceOnce h)^[n] as)) := by
  simp only [flattenFn, wrap64_of_fits (n := (n : Int)) (by omega) hn, flattenIn]
  rw [flattenArgs_eq as n hx hh]
  rfl

theorem depth_mem {a : Ex} : ∀ {as : List Ex}, a ∈ as → depth a ≤ depthArgs as
  | b :: as, h => by
    simp only [depthArgs]
    rcases List.mem_cons.1 h with rfl | h
    · omega
    · have := depth_mem h; omega

theorem depthArgs_le {k : Nat} (hk : 1 ≤ k) : ∀ {as : List Ex}, (∀ a ∈ as, depth a ≤ k) → depthArgs as ≤ k
  | [], _ => by simpa [depthArgs] using hk
  | a :: as, h => by
    have := depthArgs_le hk (fun b hb => h b (List.mem_cons_of_mem _ hb))
    have := h a (by simp)
    simp only [depthArgs]
    omega

theorem splice_noHead {h : Ex} : ∀ (n : Nat) (as : List Ex), depthArgs as ≤ n + 1 → ∀ bs, .expr (h :: bs) ∉ (spliceOnce h)^[n] as
  | 0, as, hd, bs, hm => by
    change _ ∈ as at hm
    have := depth_mem hm
    have hp := depthArgs_pos bs
    simp only [depth, depthParts] at this
    omega
  | n + 1, as, hd, bs, hm => by
    rw [Function.iterate_succ_apply] at hm
    by_cases hflat : ∃ cs, .expr (h :: cs) ∈ spliceOnce h as
    · -- an argument with head h after the round lies inside one before it
      have key : ∀ as : List Ex, depthArgs as ≤ n + 1 + 1 →
          ∀ x ∈ spliceOnce h as, depth x ≤ n + 1 ∨ spliceElem h x = [x] := by
        intro as
        induction as with
        | nil => intro _ x hx; simp [spliceOnce] at hx
        | cons a as ih =>
          intro hd x hx
          simp only [depthArgs] at hd
          rw [spliceOnce_cons, List.mem_append] at hx
          rcases hx with hx | hx
          · unfold spliceElem at hx
            split at hx
            · rename_i h' cs
              split at hx
              · left
                have := depth_mem hx
                simp only [depth, depthParts] at hd
                omega
              · rename_i e
                obtain rfl := List.mem_singleton.1 hx
                right
                simp [spliceElem, e]
            · rename_i a' hne
              obtain rfl := List.mem_singleton.1 hx
              right
              unfold spliceElem
              split
              · exact absurd rfl (hne _ _)
              · rfl
          · exact ih (by omega) x hx
      -- split the elements into shallow ones and untouched ones
      have go : ∀ l : List Ex, (∀ x ∈ l, depth x ≤ n + 1 ∨ spliceElem h x = [x]) → .expr (h :: bs) ∉ (spliceOnce h)^[n] l := by
        intro l
        induction l with
        | nil => intro _ hm; rw [splice_nil] at hm; simp at hm
        | cons x l ih =>
          intro hl hm
          rw [show x :: l = [x] ++ l from rfl, splice_append, List.mem_append] at hm
          rcases hm with hm | hm
          · rcases hl x (by simp) with hx | hx
            · exact splice_noHead n [x] (by simp [depthArgs]; omega) bs hm
            · rw [splice_fix hx] at hm
              obtain rfl := List.mem_singleton.1 hm
              simp [spliceElem] at hx
              have := congrArg (fun l => (l.map sizeOf).sum) hx
              simp at this
              have h2 : ∀ l : List Ex, (l.map sizeOf).sum ≤ sizeOf l := by
                intro l
                induction l with
                | nil => simp
                | cons a l ih => simp; omega
              have := h2 bs
              omega
          · exact ih (fun y hy => hl y (List.mem_cons_of_mem _ hy)) hm
      exact go _ (key as hd) hm
    · -- nothing to splice any more
      have hid : ∀ l : List Ex, (∀ cs, .expr (h :: cs) ∉ l) → ∀ k, (spliceOnce h)^[k] l = l := by
        intro l hl k
        induction l with
        | nil => exact splice_nil h k
        | cons x l ih =>
          rw [show x :: l = [x] ++ l from rfl, splice_append, ih (fun cs hc => hl cs (List.mem_cons_of_mem _ hc))]
          rw [splice_fix]
          unfold spliceElem
          split
          · rename_i h' cs
            rw [if_neg]
            rintro rfl
            exact hl cs (by simp)
          · rfl
      rw [hid _ (fun cs hc => hflat ⟨cs, hc⟩)] at hm
      exact hflat ⟨bs, hm⟩

/-- C76. `Flatten[h[as]]` of an expression of depth at most 10¹² - 1 contains no argument with head `h` any more, and is the result of finitely many rounds of
splicing. -/
theorem C76_complete (P h : Ex) (as : List Ex) (hd : depth (.expr (h :: as)) ≤ 999999999999) (hx : HeadsExact h as) (hh : ∀ a ∈ as, Headed a) :
    ∃ n vs, flattenFn [P, .expr (h :: as)] = some (.expr (h :: vs)) ∧ vs = (spliceOnce h)^[n] as ∧ ∀ bs, .expr (h :: bs) ∉ vs := by
  refine ⟨999999999999, (spliceOnce h)^[999999999999] as, ?_, rfl, ?_⟩
  · simp only [flattenFn, flattenIn]
    rw [show (999999999999 : Int) = ((999999999999 : Nat) : Int) from rfl, flattenArgs_eq as _ hx hh]
    rfl
  · refine splice_noHead _ as ?_
    simp only [depth, depthParts] at hd
    omega

/-- The hypotheses are met: `Flatten[{1, {2, {3}}}]`. -/
example : HeadsExact (S "List") [.int 1, listOf [.int 2, listOf [.int 3]]] ∧
    flattenFn [S "Flatten", listOf [.int 1, listOf [.int 2, listOf [.int 3]]]] = some (listOf [.int 1, .int 2, .int 3]) := by
  refine ⟨?_, by decide +kernel⟩
  intro a ha h' bs hs
  have : isSameQ (S "List") (S "List") = true := by decide +kernel
  simp only [List.mem_cons, List.not_mem_nil, or_false] at ha
  rcases ha with rfl | rfl
  · simp [Headed.subs] at hs
  · simp [Headed.subs, Headed.subsL, listOf, S] at hs
    rcases hs with ⟨rfl, -⟩ | ⟨rfl, -⟩ <;> exact ⟨fun _ => rfl, fun _ => this⟩

end Expreduce
