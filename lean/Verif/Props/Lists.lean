import Verif.Model.Lists
import Verif.Spec.Lists
import Verif.Props.Match
import Verif.Props.Replace

/-! Properties C34, C35, C36, C37, C75: list functions. -/

namespace Expreduce
open Ex

/-! ### C34: Part -/

theorem goIndex_nat (ps : List Ex) (k : Nat) : goIndex ps k = ps[k]? := by
  simp [goIndex]

theorem goIndex_ofNat (ps : List Ex) {i : Int} (h : 0 ≤ i) : goIndex ps i = ps[i.toNat]? := by
  simp [goIndex, Int.not_lt.2 h]

theorem validateIndex_spec {i : Ex} {l : Nat} {k : Int} (h : validateIndex i l = some k) : 0 ≤ k ∧ k < l := by
  unfold validateIndex at h
  split at h
  · split at h
    · cases h
    · split at h
      · cases h
      · cases h
        omega
  · cases h

theorem wrap64_of_fits {n : Int} (h1 : -2 ^ 63 ≤ n) (h2 : n < 2 ^ 63) : wrap64 n = n := by
  unfold wrap64
  omega

theorem validateIndex_int {n : Int} {l : Nat} (h1 : -2 ^ 63 ≤ n) (h2 : n < 2 ^ 63) :
    validateIndex (.int n) l = if 0 ≤ n ∧ n < l then some n else none := by
  simp only [validateIndex, wrap64_of_fits h1 h2]
  split
  · rw [if_neg (by omega)]
  · split
    · rw [if_neg (by omega)]
    · rw [if_pos (by omega)]

theorem Headed.parts {ps : List Ex} (h : Headed (.expr ps)) : ps ≠ [] ∧ ∀ p ∈ ps, Headed p := by
  constructor
  · rintro rfl
    exact h _ (.inl rfl) rfl
  · intro p hp q hq
    refine h q (.inr ?_)
    have : ∀ ps : List Ex, p ∈ ps → q ∈ Headed.subsL ps := by
      intro ps
      induction ps with
      | nil => simp
      | cons a l ih =>
        intro hp
        simp only [Headed.subsL, List.mem_cons, List.mem_append, List.cons_append]
        rcases List.mem_cons.1 hp with rfl | hp
        · rcases hq with rfl | hq
          · exact .inl rfl
          · exact .inr (.inl hq)
        · exact .inr (.inr (ih hp))
    exact this ps hp

theorem spanLoop_some {f : Ex → Option (Option Ex)} {ps : List Ex} (hf : ∀ p ∈ ps, (f p).isSome) :
    ∀ (k : Nat) (i : Int), 0 ≤ i → (k = 0 ∨ i + k ≤ ps.length) → (spanLoop f ps k i).isSome
  | 0, _, _, _ => rfl
  | k + 1, i, h0, h1 => by
    have hlt : i.toNat < ps.length := by omega
    have := hf _ (List.getElem_mem hlt)
    obtain ⟨r, hr⟩ := Option.isSome_iff_exists.1 this
    simp only [spanLoop, goIndex_ofNat _ h0, List.getElem?_eq_getElem hlt, Option.bind_some, hr]
    cases r with
    | none => rfl
    | some v =>
      simp only [Option.isSome_map]
      exact spanLoop_some hf k (i + 1) (by omega) (by omega)

theorem indexRange_spec {i : Ex} {l : Nat} {lo hi : Int} (hl : 0 < l) (h : indexRange i l = some (lo, hi)) : 0 ≤ lo ∧ hi < l := by
  unfold indexRange at h
  split at h
  · rename_i a b _
    obtain ⟨s, hs, h⟩ := Option.bind_eq_some_iff.1 h
    obtain ⟨e, he, h⟩ := Option.map_eq_some_iff.1 h
    cases h
    refine ⟨(validateIndex_spec hs).1, ?_⟩
    unfold spanEnd at he
    split at he
    · cases he; omega
    · exact (validateIndex_spec he).2
  · cases h
  · split at h
    · cases h; omega
    · cases h

theorem applyIndex_safe : ∀ (is : List Ex) (e : Ex), Headed e → (applyIndex is e).isSome
  | [], _, _ => rfl
  | i :: is, .expr ps, h => by
    obtain ⟨hne, hp⟩ := h.parts
    have hpos : 0 < ps.length := List.length_pos_iff.2 hne
    have ih : ∀ p ∈ ps, (applyIndex is p).isSome := fun p hpp => applyIndex_safe is p (hp p hpp)
    have hint : ∀ n, i = .int n → (applyIndex (i :: is) (.expr ps)).isSome := by
      rintro n rfl
      simp only [applyIndex]
      split
      · rfl
      · rename_i k hk
        obtain ⟨h0, h1⟩ := validateIndex_spec hk
        have hlt : k.toNat < ps.length := by omega
        simp only [goIndex_ofNat _ h0, List.getElem?_eq_getElem hlt, Option.bind_some]
        exact ih _ (List.getElem_mem hlt)
    have hrange : (∀ n, i ≠ .int n) → (applyIndex (i :: is) (.expr ps)).isSome := by
      intro hn
      rw [applyIndex]
      · split
        · rfl
        · rename_i lo hi hr
          obtain ⟨h0, h1⟩ := indexRange_spec hpos hr
          have : goIndex ps 0 = some ps[0] := by simp [goIndex, List.getElem?_eq_getElem hpos]
          simp only [this, Option.bind_some, Option.isSome_map]
          exact spanLoop_some ih _ _ h0 (by omega)
      · exact fun n h => hn n h
    cases i with
    | int n => exact hint n rfl
    | _ => exact hrange (fun n h => by cases h)
  | _ :: _, .sym _, _ => by simp [applyIndex]
  | _ :: _, .str _, _ => by simp [applyIndex]
  | _ :: _, .int _, _ => by simp [applyIndex]
  | _ :: _, .rat _ _, _ => by simp [applyIndex]
  | _ :: _, .flt _, _ => by simp [applyIndex]
  | _ :: _, .cplx _ _, _ => by simp [applyIndex]

/-- C34. `Part[e, i₁, i₂, ...]` never reads outside an expression, whatever the indices are. -/
theorem C34_safe (h e : Ex) (is : List Ex) (he : Headed e) : ∃ v, partFn (h :: e :: is) = some v := by
  obtain ⟨r, hr⟩ := Option.isSome_iff_exists.1 (applyIndex_safe is e he)
  exact ⟨r.getD (.expr (h :: e :: is)), by simp only [partFn, hr, Option.map_some]⟩

/-- C34. A single index: `f[x₁, ..., xₙ][[k]]` is `xₖ`, index 0 gives the head, and every other index that fits in 64 bits (negative ones too) leaves the
call as it is. -/
theorem C34_element (P f : Ex) (xs : List Ex) (k : Int) (h1 : -2 ^ 63 ≤ k) (h2 : k < 2 ^ 63) :
    partFn [P, .expr (f :: xs), .int k] =
      some (if k = 0 then f else if k < 0 then .expr [P, .expr (f :: xs), .int k] else (xs[k.toNat - 1]?).getD (.expr [P, .expr (f :: xs), .int k])) := by
  simp only [partFn, applyIndex, validateIndex_int h1 h2]
  split
  · rename_i hc
    split at hc
    · cases hc
    · rename_i hr
      simp only [List.length_cons, not_and, not_lt] at hr
      simp only [Option.map_some, Option.getD_none]
      by_cases h0 : k < 0
      · rw [if_neg (by omega), if_pos h0]
      · have := hr (by omega)
        rw [if_neg (by omega), if_neg h0, List.getElem?_eq_none (by omega), Option.getD_none]
  · rename_i j hj
    split at hj
    · rename_i hr
      cases hj
      simp only [List.length_cons] at hr
      rw [goIndex_ofNat _ hr.1]
      by_cases h0 : k = 0
      · subst h0
        simp [applyIndex]
      · obtain ⟨m, hm⟩ : ∃ m : Nat, k.toNat = m + 1 := ⟨k.toNat - 1, by omega⟩
        have hlt : m < xs.length := by omega
        rw [if_neg h0, if_neg (by omega), hm]
        simp [applyIndex, List.getElem?_eq_getElem hlt]
    · cases hj

theorem spanLoop_eq {f : Ex → Option (Option Ex)} {g : Ex → Ex} {ps : List Ex} : ∀ (k i : Nat), i + k ≤ ps.length →
    (∀ p ∈ (ps.drop i).take k, f p = some (some (g p))) → spanLoop f ps k i = some (some (((ps.drop i).take k).map g))
  | 0, i, _, _ => by simp [spanLoop]
  | k + 1, i, h, hf => by
    have hlt : i < ps.length := by omega
    have hd : (ps.drop i).take (k + 1) = ps[i] :: (ps.drop (i + 1)).take k := by
      rw [List.drop_eq_getElem_cons hlt, List.take_succ_cons]
    rw [hd] at hf ⊢
    have h1 := hf ps[i] (by simp)
    have ih := spanLoop_eq k (i + 1) (by omega) (fun p hp => hf p (List.mem_cons_of_mem _ hp))
    simp only [spanLoop, goIndex_nat, List.getElem?_eq_getElem hlt, Option.bind_some, h1]
    rw [show ((i : Int) + 1) = ((i + 1 : Nat) : Int) by omega, ih]
    simp

theorem applyIndex_elem {ps : List Ex} {k : Nat} {v : Ex} {is : List Ex} (hl : ps.length < 2 ^ 63) (hv : ps[k]? = some v) :
    applyIndex (.int k :: is) (.expr ps) = applyIndex is v := by
  have hlt := (List.getElem?_eq_some_iff.1 hv).1
  have hval : validateIndex (.int (k : Int)) ps.length = some (k : Int) := by
    rw [validateIndex_int (by omega) (by omega)]
    exact if_pos ⟨by omega, by omega⟩
  rw [applyIndex, hval]
  show (goIndex ps k).bind (applyIndex is) = _
  rw [goIndex_nat, hv, Option.bind_some]

theorem applyIndex_range {f : Ex} {xs : List Ex} {a b : Nat} {is : List Ex} {g : Ex → Ex} (ha : 1 ≤ a) (hb : b ≤ xs.length)
    (hg : ∀ x ∈ slice xs a b, applyIndex is x = some (some (g x))) (i : Ex) (hn : ∀ n, i ≠ .int n)
    (hr : indexRange i (xs.length + 1) = some ((a : Int), (b : Int))) :
    applyIndex (i :: is) (.expr (f :: xs)) = some (some (.expr (f :: (slice xs a b).map g))) := by
  have hk : ((b : Int) + 1 - (a : Int)).toNat = b + 1 - a := by omega
  have hs : ((f :: xs).drop a).take (b + 1 - a) = slice xs a b := by
    obtain ⟨a, rfl⟩ : ∃ m, a = m + 1 := ⟨a - 1, by omega⟩
    simp only [List.drop_succ_cons, slice, Nat.add_sub_cancel]
    rw [List.drop_take]
    congr 1
    omega
  have h0 : goIndex (f :: xs) 0 = some f := rfl
  have hl : (spanLoop (applyIndex is) (f :: xs) (b + 1 - a) a) = some (some ((slice xs a b).map g)) := by
    have := spanLoop_eq (f := applyIndex is) (g := g) (ps := f :: xs) (b + 1 - a) a
    by_cases hab : a ≤ b
    · rw [this (by simp only [List.length_cons]; omega) (by rw [hs]; exact hg), hs]
    · rw [show b + 1 - a = 0 by omega]
      have : slice xs a b = [] := by simp [slice]; omega
      simp [spanLoop, this]
  rw [applyIndex]
  · simp only [List.length_cons, hr, h0, Option.bind_some, hk, hl, Option.map_some]
  · exact fun n h => hn n h

theorem SmallParts.part {ps : List Ex} (h : SmallParts (.expr ps)) {p : Ex} (hp : p ∈ ps) : SmallParts p := by
  intro qs hq
  refine h qs (.inr ?_)
  have : ∀ ps : List Ex, p ∈ ps → .expr qs ∈ Headed.subsL ps := by
    intro ps
    induction ps with
    | nil => simp
    | cons a l ih =>
      intro hp
      simp only [Headed.subsL, List.mem_cons, List.mem_append, List.cons_append]
      rcases List.mem_cons.1 hp with rfl | hp
      · rcases hq with hq | hq
        · exact .inl hq
        · exact .inr (.inl hq)
      · exact .inr (.inr (ih hp))
  exact this ps hp

/-- C34. Whatever the specification selects is what `Part` returns: any number of indices, ranges, `All`. -/
theorem C34_selects (P e w : Ex) (is : List Ex) (hs : SmallParts e) (h : PartIs e is w) : partFn (P :: e :: is) = some w := by
  have key : applyIndex is e = some (some w) := by
    induction h with
    | nil e => rfl
    | @elem ps k v w is hv _ ih =>
      rw [applyIndex_elem (hs ps (.inl rfl)) hv]
      exact ih (hs.part (List.mem_of_getElem? hv))
    | @span f xs a b is g ha ha' hb _ ih =>
      have hl := hs (f :: xs) (.inl rfl)
      rw [List.length_cons] at hl
      refine applyIndex_range ha hb (fun x hx => ih x hx (hs.part (List.mem_cons_of_mem _ ?_))) _ (fun n h => by cases h) ?_
      · exact List.mem_of_mem_take (List.mem_of_mem_drop hx)
      · have va : validateIndex (.int (a : Int)) (xs.length + 1 + 1) = some (a : Int) := by
          rw [validateIndex_int (by omega) (by omega), if_pos (by omega)]
        have vb : validateIndex (.int (b : Int)) (xs.length + 1) = some (b : Int) := by
          rw [validateIndex_int (by omega) (by omega), if_pos (by omega)]
        have : spanEnd (.int (b : Int)) (xs.length + 1) = some (b : Int) := by simp [spanEnd, S, vb]
        simp [indexRange, argsOf, S, va, this]
    | @toEnd f xs a is g ha ha' _ ih =>
      have hl := hs (f :: xs) (.inl rfl)
      rw [List.length_cons] at hl
      have e : xs.drop (a - 1) = slice xs a xs.length := by simp [slice]
      rw [e] at ih ⊢
      refine applyIndex_range ha le_rfl (fun x hx => ih x hx (hs.part (List.mem_cons_of_mem _ ?_))) _ (fun n h => by cases h) ?_
      · exact List.mem_of_mem_take (List.mem_of_mem_drop hx)
      · have va : validateIndex (.int (a : Int)) (xs.length + 1 + 1) = some (a : Int) := by
          rw [validateIndex_int (by omega) (by omega), if_pos (by omega)]
        simp [indexRange, argsOf, S, va, spanEnd]
    | @all f xs is g _ ih =>
      have e : xs = slice xs 1 xs.length := by simp [slice]
      have := applyIndex_range (f := f) (xs := xs) (a := 1) (b := xs.length) (is := is) (g := g) le_rfl le_rfl
        (fun x hx => ih x (by rw [e]; exact hx) (hs.part (List.mem_cons_of_mem _ (by rw [e]; exact hx)))) (S "All")
        (fun n h => by cases h) (by simp [indexRange, argsOf, S])
      rw [← e] at this
      exact this
  simp [partFn, key]

/-- The hypotheses are met: `{{1, 2}, {3, 4}}[[All, 2]]` is `{2, 4}`. -/
example : PartIs (listOf [listOf [.int 1, .int 2], listOf [.int 3, .int 4]]) [S "All", .int 2] (listOf [.int 2, .int 4]) := by
  refine .all (g := fun x => if x = listOf [.int 1, .int 2] then .int 2 else .int 4) (fun x hx => ?_)
  rcases List.mem_cons.1 hx with rfl | hx
  · exact .elem (ps := [S "List", .int 1, .int 2]) (k := 2) rfl (.nil _)
  · obtain rfl := List.mem_singleton.1 hx
    exact .elem (ps := [S "List", .int 3, .int 4]) (k := 2) rfl (.nil _)

/-- C34. Indices beyond 64 bits are not rejected: they are reduced modulo 2⁶⁴. `{a, b}[[2⁶⁴ + 1]]` is `a`. -/
theorem C34_huge_index (P f : Ex) (xs : List Ex) (k m : Int) (h0 : 0 ≤ k) (h1 : k < 2 ^ 63) :
    applyIndex [.int (k + m * 2 ^ 64)] (.expr (f :: xs)) = applyIndex [.int k] (.expr (f :: xs)) ∧
    partFn [P, .expr [f, .sym "a", .sym "b"], .int (2 ^ 64 + 1)] = some (.sym "a") := by
  constructor
  · have : wrap64 (k + m * 2 ^ 64) = wrap64 k := by unfold wrap64; omega
    simp only [applyIndex, validateIndex, this]
  · have h : applyIndex [.int (2 ^ 64 + 1)] (.expr [f, .sym "a", .sym "b"]) = some (some (.sym "a")) := by
      have h3 : validateIndex (.int (2 ^ 64 + 1)) 3 = some 1 := by decide +kernel
      rw [applyIndex, show [f, .sym "a", .sym "b"].length = 3 from rfl, h3]
      rfl
    rw [partFn, h]
    rfl

/-- C34. `expr[[0 ;; b]]` repeats the head as an element: `{a, b}[[0 ;; 1]]` is `{List, a}`. -/
theorem C34_span_zero (P f x y : Ex) : partFn [P, .expr [f, x, y], .expr [S "Span", .int 0, .int 1]] = some (.expr [f, f, x]) := by
  have h0 : validateIndex (.int 0) 4 = some 0 := by decide +kernel
  have h1 : validateIndex (.int 1) 3 = some 1 := by decide +kernel
  simp [partFn, applyIndex, indexRange, argsOf, S, spanEnd, h0, h1, spanLoop, goIndex]

/-! ### C35: padding -/

theorem buildList_eq {f : Int → Option Ex} {g : Nat → Ex} : ∀ (k i : Nat), (∀ j, i ≤ j → j < i + k → f j = some (g j)) →
    buildList f k i = some ((List.range' i k).map g)
  | 0, _, _ => rfl
  | k + 1, i, h => by
    have ih := buildList_eq k (i + 1) (fun j h1 h2 => h j (by omega) (by omega))
    simp only [buildList, h i (by omega) (by omega), Option.bind_some]
    rw [show ((i : Int) + 1) = ((i + 1 : Nat) : Int) by omega, ih]
    simp [List.range'_succ]

/-- C35. `PadRight[f[xs], n, x]` for `0 ≤ n < 2⁶³` has exactly `n` elements: the first `n` of `xs`, then `x`. Without `x`, zeros are used. -/
theorem C35_right (P f x : Ex) (xs : List Ex) (n : Nat) (hn : (n : Int) < 2 ^ 63) :
    padRightFn [P, .expr (f :: xs), .int n, x] = some (.expr (f :: padRight xs n x)) ∧
    padRightFn [P, .expr (f :: xs), .int n] = some (.expr (f :: padRight xs n (.int 0))) ∧ (padRight xs n x).length = n := by
  have key : ∀ x, buildList (padRightAt (f :: xs) x) n 0 = some (padRight xs n x) := by
    intro x
    have := buildList_eq (f := padRightAt (f :: xs) x) (g := fun j => (xs[j]?).getD x) n 0 (fun j _ _ => by
      simp only [padRightAt, List.length_cons]
      split
      · rw [List.getElem?_eq_none (by omega), Option.getD_none]
      · have hlt : j < xs.length := by omega
        rw [show ((j : Int) + 1) = ((j + 1 : Nat) : Int) by omega, goIndex_nat]
        simp [List.getElem?_eq_getElem hlt])
    rw [show ((0 : Nat) : Int) = 0 by rfl] at this
    rw [this]
    refine congrArg some ?_
    apply List.ext_getElem
    · simp [padRight]; omega
    · intro j h1 h2
      simp only [List.length_map, List.length_range'] at h1
      simp only [padRight, List.getElem_map, List.getElem_range', Nat.zero_add, Nat.one_mul, List.getElem_append, List.length_take]
      split
      · rename_i h
        rw [List.getElem?_eq_getElem (by omega)]
        simp
      · rename_i h
        rw [List.getElem?_eq_none (by omega)]
        simp
  have hw : (wrap64 (n : Int)).toNat = n := by rw [wrap64_of_fits (by omega) hn]; rfl
  refine ⟨?_, ?_, by simp [padRight]; omega⟩ <;> simp [padRightFn, padParams, goIndex, hw, key]

/-- C35. `PadLeft[f[xs], n, x]` for `0 ≤ n < 2⁶³` has exactly `n` elements: `x` first, then the last `n` of `xs`. -/
theorem C35_left (P f x : Ex) (xs : List Ex) (n : Nat) (hn : (n : Int) < 2 ^ 63) :
    padLeftFn [P, .expr (f :: xs), .int n, x] = some (.expr (f :: padLeft xs n x)) ∧
    padLeftFn [P, .expr (f :: xs), .int n] = some (.expr (f :: padLeft xs n (.int 0))) ∧ (padLeft xs n x).length = n := by
  have hw : wrap64 (n : Int) = n := wrap64_of_fits (by omega) hn
  have key : ∀ x, buildList (padLeftAt (f :: xs) n x) n 0 = some (padLeft xs n x) := by
    intro x
    have := buildList_eq (f := padLeftAt (f :: xs) n x) (g := fun j => if j < n - xs.length then x else (xs[xs.length + j - n]?).getD x) n 0
      (fun j _ hj => by
        simp only [padLeftAt, List.length_cons]
        split
        · rw [if_pos (by omega)]
        · have hlt : xs.length + j - n < xs.length := by omega
          rw [if_neg (by omega), show (((xs.length + 1 : Nat) : Int) - ((n : Int) - (j : Int))) = ((xs.length + j - n + 1 : Nat) : Int) by omega, goIndex_nat]
          simp [List.getElem?_eq_getElem hlt])
    rw [show ((0 : Nat) : Int) = 0 by rfl] at this
    rw [this]
    refine congrArg some ?_
    apply List.ext_getElem
    · simp [padLeft]; omega
    · intro j h1 h2
      simp only [List.length_map, List.length_range'] at h1
      simp only [padLeft, List.getElem_map, List.getElem_range', Nat.zero_add, Nat.one_mul, List.getElem_append, List.length_replicate]
      split
      · simp
      · rename_i h
        rw [List.getElem?_eq_getElem (by omega)]
        have e : xs.length + j - n = xs.length - n + (j - (n - xs.length)) := by omega
        simp only [Option.getD_some, List.getElem_drop, e]
  refine ⟨?_, ?_, by simp [padLeft]; omega⟩ <;> simp [padLeftFn, padParams, goIndex, hw, key]

/-- C35. For a negative length the result is empty, and lengths are reduced modulo 2⁶⁴: `PadRight[{a, b}, 2⁶⁴ + 1]` is `{a}`. -/
theorem C35_odd_lengths (P f x : Ex) (xs : List Ex) (n : Int) (h1 : -2 ^ 63 ≤ n) (h2 : n < 0) :
    padRightFn [P, .expr (f :: xs), .int n, x] = some (.expr [f]) ∧ padLeftFn [P, .expr (f :: xs), .int n, x] = some (.expr [f]) ∧
    padRightFn [P, .expr [f, x, x], .int (2 ^ 64 + 1)] = some (.expr [f, x]) := by
  have hw : (wrap64 n).toNat = 0 := by rw [wrap64_of_fits h1 (by omega)]; omega
  refine ⟨?_, ?_, ?_⟩
  · simp [padRightFn, padParams, goIndex, hw, buildList]
  · simp [padLeftFn, padParams, goIndex, hw, buildList]
  · have h1 : padParams [P, .expr [f, x, x], .int (2 ^ 64 + 1)] = some ([f, x, x], 1, .int 0) := by
      rw [padParams, show wrap64 (2 ^ 64 + 1) = 1 from by decide +kernel]
    rw [padRightFn, h1]
    rfl

end Expreduce
