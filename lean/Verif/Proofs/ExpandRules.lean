import Verif.Proofs.Expand
import Verif.Proofs.ReplaceMeaning
import Verif.Spec.Expand
import Verif.Proofs.Algebra4
import Verif.Proofs.LinearRules

/-! The two rules of `Expand` keep the value. -/

namespace Expreduce
open Ex Shipped

theorem runCall_plain {ev : Ex → Ex} {s : String} (h : s ∉ expandPrograms) (qs : List Ex) : runCall ev (.sym s :: qs) = .expr (.sym s :: qs) := by
  simp only [expandPrograms, List.mem_cons, List.not_mem_nil, or_false, not_or] at h
  obtain ⟨h1, h2, h3, h4, h5⟩ := h
  unfold runCall
  split
  · rename_i f a b heq
    simp only [List.cons.injEq, Ex.sym.injEq] at heq
    obtain ⟨rfl, _⟩ := heq
    rw [if_neg (fun h => h1 h.1), if_neg h4, if_neg h5, if_neg h3]
  · rename_i f a heq
    simp only [List.cons.injEq, Ex.sym.injEq] at heq
    obtain ⟨rfl, _⟩ := heq
    rw [if_neg h2]
  · rfl

theorem finishL_eq (ev : Ex → Ex) : ∀ l, finishL ev l = l.map (finish ev)
  | [] => by simp [finishL]
  | a :: l => by simp [finishL, finishL_eq ev l]

theorem finish_plain {ev : Ex → Ex} {s : String} (h : s ∉ expandPrograms) (qs : List Ex) : finish ev (.expr (.sym s :: qs)) = .expr (.sym s :: qs.map (finish ev)) := by
  rw [finish, finishL, show finish ev (.sym s) = .sym s by simp [finish], runCall_plain h, finishL_eq]

theorem finish_frag {ev : Ex → Ex} {H : String → Prop} (hH : ∀ s, H s → s ∉ expandPrograms) {e : Ex} (h : Frag H e) : finish ev e = e := by
  induction h with
  | @app s args hs _ ih =>
    rw [finish_plain (hH s hs), List.map_congr_left ih]
    simp
  | _ => simp [finish]

theorem natsOf_nums : ∀ l : List Nat, natsOf (l.map (fun k : Nat => Ex.int (k : Int))) = some l
  | [] => rfl
  | k :: l => by simp [natsOf, natsOf_nums l]

theorem natListsOf_numList : ∀ l : List (List Nat), natListsOf (l.map numList) = some l
  | [] => rfl
  | q :: l => by
    rw [List.map_cons, numList, S, natListsOf, natsOf_nums, natListsOf_numList l]
    simp

section
variable {V : Interp}

theorem den_powerEx {a : Ex} {v : ℂ} (h : V.Denotes a v) (h0 : a ≠ .int 0) (k : Nat) : V.Denotes (powerEx a k) (v ^ k) := by
  unfold powerEx
  split
  · subst k; rw [pow_one]; exact h
  · split
    · subst k; rw [pow_zero]; first | exact den_1 | (rw [if_neg h0]; exact den_1)
    · rename_i hk
      exact den_pow h (den_int _) (by rw [Int.cast_natCast]; exact powValue_natCast hk)

theorem den_genVars : ∀ {as : List Ex} {vs : List ℂ} (_ : List.Forall₂ V.Denotes as vs) (_ : Ex.int 0 ∉ as) (q : List Nat),
    List.Forall₂ V.Denotes (List.zipWith powerEx as q) (List.zipWith (fun (v : ℂ) (k : Nat) => v ^ k) vs q)
  | [], _, .nil, _, q => by simp
  | a :: as, _, .cons h hs, h0, [] => by simp
  | a :: as, _, .cons h hs, h0, k :: q => by
    simp only [List.mem_cons, not_or] at h0
    exact .cons (den_powerEx h (fun h => h0.1 h.symm) k) (den_genVars hs h0.2 q)

theorem multinomial_num (q : List Nat) : (((multinomial q).num : ℤ) : ℂ) = ((multinomial q : ℚ) : ℂ) := by
  obtain ⟨m, hm, _⟩ := C102_multinomial q
  rw [hm]
  simp

/-- The expansion has the value of the power. -/
theorem den_genExpand {as : List Ex} {vs : List ℂ} (h : List.Forall₂ V.Denotes as vs) (h0 : Ex.int 0 ∉ as) (hne : as ≠ []) {n : Nat} (hn : 1 ≤ n) :
    V.Denotes (genExpand as (possibleExponents n as.length)) (vs.sum ^ n) := by
  have hm : 1 ≤ as.length := by cases as with
    | nil => exact absurd rfl hne
    | cons a as => simp
  have hl := h.length_eq
  have h1 : ∀ E : List (List Nat), V.Denotes (genExpand as E) ((E.map (fun q => ((multinomial q : ℚ) : ℂ) * (List.zipWith (fun (v : ℂ) (k : Nat) => v ^ k) vs q).prod)).sum) := by
    intro E
    refine den_add (es := E.map (fun q => mul [.int (multinomial q).num, genVars as q])) ?_
    induction E with
    | nil => exact .nil
    | cons q E ih =>
      refine .cons ?_ ih
      show V.Denotes (mul [.int (multinomial q).num, genVars as q]) (((multinomial q : ℚ) : ℂ) * _)
      rw [← multinomial_num]
      exact den_mul2 (den_int _) (den_mul (den_genVars h h0 q))
  refine den_eq (h1 _) ?_
  rw [← multinomial_sum vs n, ← hl]
  exact ((exponents_perm hn hm).map _).sum_eq

/-- A sum, each addend multiplied by `c`. -/
theorem den_timesSlot {c : Ex} {x : ℂ} (hc : V.Denotes c x) : ∀ {as : List Ex} {vs : List ℂ} (_ : List.Forall₂ V.Denotes as vs),
    List.Forall₂ V.Denotes (as.map (timesSlot c)) (vs.map (x * ·))
  | [], _, .nil => .nil
  | _ :: _, _, .cons h hs => .cons (den_mul2 hc h) (den_timesSlot hc hs)

end


section
variable {env : MEnv} {m : Nat} {ev : Ex → Ex} {V : Interp} {e a : Ex} {ρ : String → Option Ex}

theorem pieces_trans {e a : Ex} (ha : a ∈ pieces e) : ∀ {b : Ex}, b ∈ pieces a → b ∈ pieces e := by
  have hpart := pieces_part e
  have hop := pieces_opened e
  generalize pieces e = U at *
  revert ha
  induction a using Ex.rec (motive_2 := fun ps => (∀ p ∈ ps, p ∈ U) → ∀ p ∈ ps, ∀ {b : Ex}, b ∈ pieces p → b ∈ U) with
  | expr ps ih =>
    intro ha b hb
    rcases mem_pieces_expr hb with rfl | ⟨p, hp, hb⟩
    · exact ha
    · exact ih (fun p hp => hpart _ ps ha rfl p hp) p hp hb
  | rat n d =>
    intro ha b hb
    have h := hpart _ [S "Rational", .int n, .int d] ha rfl
    simp only [pieces, List.mem_cons, List.not_mem_nil, or_false] at hb
    rcases hb with rfl | rfl | rfl | rfl | rfl
    · exact ha
    · exact hop _ ha
    · exact h _ (by simp)
    · exact h _ (by simp)
    · exact h _ (by simp)
  | cplx re im ih1 ih2 =>
    intro ha b hb
    have h := hpart _ [S "Complex", re, im] ha rfl
    simp only [pieces, List.mem_cons, List.mem_append] at hb
    rcases hb with rfl | rfl | rfl | hb | hb
    · exact ha
    · exact hop _ ha
    · exact h _ (by simp)
    · exact ih1 (h _ (by simp)) hb
    · exact ih2 (h _ (by simp)) hb
  | nil => rename_i h q hq b hb; cases hq
  | cons p ps ih1 ih2 =>
    rename_i h q hq b hb
    rcases List.mem_cons.1 hq with rfl | hq
    · exact ih1 (h _ (by simp)) hb
    · exact ih2 (fun r hr => h r (by simp [hr])) q hq hb
  | _ => intro ha b hb; simp only [pieces, List.mem_singleton] at hb; subst hb; exact ha

theorem matches_test {t : String} {p : Ex} (htn : "System`" ++ t ≠ "System`NumberQ") (hm : Matches env ρ (.expr [S "PatternTest", p, S t]) a) :
    env.isTrue (.expr [S t, a]) = true := by
  generalize hp : Ex.expr [S "PatternTest", p, S t] = b at hm
  cases hm with
  | test _ hT =>
    simp only [Ex.expr.injEq, List.cons.injEq, and_true, true_and] at hp
    obtain ⟨_, rfl⟩ := hp
    unfold TestHolds at hT
    rw [if_neg (by simpa [S] using htn)] at hT
    exact hT
  | lit h => subst hp; cases h
  | blank h => simp [S] at hp; obtain ⟨rfl, _⟩ := hp; simp [blankHeads] at h
  | named h => simp [S] at hp
  | same A h => simp [S] at hp; obtain ⟨rfl, _⟩ := hp; simp [specialHeads] at h
  | diff A h => simp at hp; subst hp; exact absurd (h "System`PatternTest" rfl) (by simp [specialHeads])
  | clash _ _ h => simp at hp; subst hp; exact absurd (h "System`PatternTest" rfl) (by simp [specialHeads])
  | assumed h => simp [S] at hp; obtain ⟨rfl, _⟩ := hp; simp [specialHeads] at h
  | verb => simp [S] at hp
  | verbClash => simp [S] at hp
  | alt => simp [S] at hp
  | hold => simp [S] at hp

theorem expandHead_not {s : String} (h : ExpandHead s) : s ∉ expandPrograms := h.1

theorem frag_plus {w : Ex} (h : Frag ExpandHead w) (hh : headOf w = S "Plus") : ∃ as, w = .expr (.sym "System`Plus" :: as) ∧ ∀ a ∈ as, Frag ExpandHead a := by
  cases h with
  | app _ h2 => simp only [headOf, S, Ex.sym.injEq] at hh; subst hh; exact ⟨_, rfl, h2⟩
  | _ => simp [headOf, S] at hh

theorem frag_int {w : Ex} (h : Frag ExpandHead w) (hh : headOf w = S "Integer") : ∃ n, w = .int n := by
  cases h with
  | app h1 _ => simp only [headOf, S, Ex.sym.injEq] at hh; subst hh; exact absurd rfl h1.2.2
  | int n => exact ⟨n, rfl⟩
  | _ => simp [headOf, S] at hh

/-- A sum of expressions of the fragment that has a value. -/
theorem sum_values {as : List Ex} {v : ℂ} (hf : ∀ a ∈ as, Frag ExpandHead a) (h : V.meaning.val (.expr (.sym "System`Plus" :: as)) = some v) :
    ∃ vs, List.Forall₂ V.Denotes as vs ∧ vs.sum = v := by
  have hq : ∀ a ∈ as, hasHead "System`Sequence" a = false := fun a ha => frag_noHead (H := ExpandHead) (fun h => h.2.1 rfl) (hf a ha)
  obtain ⟨vs, h1, h2⟩ := den_inv (s := "System`Plus") (V := V) (v := v) (by decide) hq (by
    unfold Interp.Denotes
    rw [Meaning.argVals_app (by decide), ← Meaning.val_app, h])
  rw [arith_plus] at h2
  exact ⟨vs, h1, by simpa using h2⟩

theorem expandPower_finish {as : List Ex} {n : Nat} (hs : ρ "Private`s" = some (add as)) (hn : ρ "Private`n" = some (.int n)) (ho : OnlyNames ρ expandPower.1)
    (hf : ∀ a ∈ as, Frag ExpandHead a) (he : ev (add as) = add as) :
    finish ev (subst ρ expandPower.2) = genExpand as (possibleExponents n as.length) := by
  have hfin : as.map (finish ev) = as := by
    rw [List.map_congr_left (fun a ha => finish_frag (fun s h => expandHead_not h) (hf a ha))]; simp
  have hsum : finish ev (add as) = add as := by
    rw [show add as = .expr (.sym "System`Plus" :: as) from rfl, finish_plain (by decide), hfin]
  have h1 : ρ "Private`genExpand" = none := ho.none (by decide +kernel)
  have h2 : ρ "Private`possibleExponents" = none := ho.none (by decide +kernel)
  have h3 : ρ "System`Apply" = none := ho.none (by decide +kernel)
  have h4 : ρ "System`Length" = none := ho.none (by decide +kernel)
  have h5 : ρ "System`List" = none := ho.none (by decide +kernel)
  have e1 : subst ρ expandPower.2 = .expr [.sym "Private`genExpand", .expr [.sym "System`Apply", .sym "System`List", add as],
      .expr [.sym "Private`possibleExponents", .int n, .expr [.sym "System`Length", add as]]] := by
    simp [expandPower, call, S, var, subst, substL, h1, h2, h3, h4, h5, hs, hn]
  rw [e1]
  simp only [finish, finishL, hsum]
  have he' : ev (.expr (.sym "System`Plus" :: as)) = .expr (.sym "System`Plus" :: as) := he
  have r1 : runCall ev [.sym "System`Apply", .sym "System`List", add as] = .expr (S "List" :: as) := by
    simp [runCall, S, he', add, call]
  have r2 : runCall ev [.sym "System`Length", add as] = .int as.length := by
    simp [runCall, S, he', add, call]
  have r3 : runCall ev [.sym "Private`possibleExponents", .int n, .int as.length] = .expr (S "List" :: (possibleExponents n as.length).map numList) := by
    simp [runCall, S]
  rw [r1, r2, r3]
  simp [runCall, S, natListsOf_numList]

/-- The rule for powers keeps the value. -/
theorem expandPower_at [env.Exact] (hE : ArithEnv env []) (hS : ExpandSetup env m ev e) (ha : a ∈ pieces e) :
    RuleAt V.meaning Refines env m expandPower.1 expandPower.2 (finish ev) a where
  hit := by
    intro q hq
    have hep : EPat expandPower.1 := epatB_sound (n := 20) (by decide +kernel)
    have hfr := fun b hb => pieces_frag (H := ExpandHead) ⟨by decide, by decide, by decide⟩ ⟨by decide, by decide, by decide⟩ hS.frag b hb
    have hm := C20_sound_partial env m a expandPower.1 q hep (frag_noReal (hfr a ha)) hq
    have ho := isMatchQ_names hep hq
    have hcl := hS.clash a ha expandPower.1 (by simp [expandPatterns]) q hq
    obtain ⟨hval, ht⟩ := val_of_match (M := V.meaning) (fun s hs => arith_lawful hE V hs) (fpat_of (n := 20) (by decide +kernel)) hcl hm
    rw [replacePD_bindings]
    generalize bindingsOf q = ρ at *
    obtain ⟨ws, hws, hws'⟩ := (ht (false, "System`Power", anyOf "s" "Plus") (by decide +kernel)).one (x := "Private`s") (by decide +kernel)
      (by simp [callShape, hE.power, shape_anyOf]) (by simp [callShape, hE.power, shape_anyOf]) (by simp [hE.power])
    have hsh : callShape env false "System`Power" (tested (anyOf "n" "Integer") "Positive") =
        ⟨1, 1, .expr [S "PatternTest", .expr [S "Blank", S "Integer"], S "Positive"], some "Private`n", true, S "Sequence", none⟩ := by
      simp [callShape, hE.power, shape, tested, anyOf, call, var, S, testShape, namedShape, bodyShape]
    obtain ⟨wn, hwn, hwn'⟩ := (ht (false, "System`Power", tested (anyOf "n" "Integer") "Positive") (by decide +kernel)).one (x := "Private`n") (by decide +kernel)
      (by rw [hsh]) (by rw [hsh]) (by simp [hE.power])
    have hwsf := hfr ws (pieces_trans ha hws'.prop)
    obtain ⟨as, rfl, has⟩ := frag_plus hwsf (hws'.head _ (by simp [callShape, hE.power, shape_anyOf, blankHead, S]))
    obtain ⟨k, rfl⟩ := frag_int (hfr wn (pieces_trans ha hwn'.prop)) (hwn'.head _ (by rw [hsh]; simp [blankHead, S]))
    have hpos : 0 < k := by
      refine hS.positive k ?_
      have hm' := hwn'.matched
      rw [hsh] at hm'
      exact matches_test (by decide) hm'
    obtain ⟨n, rfl⟩ := Int.eq_ofNat_of_zero_le hpos.le
    have hn : 1 ≤ n := by omega
    have hpc := pieces_trans ha hws'.prop
    rw [expandPower_finish (n := n) hws hwn ho has (hS.evaluated _ hpc)]
    have hns : hasHead "System`Sequence" a = false := frag_noHead (H := ExpandHead) (fun h => h.2.1 rfl) (hfr a ha)
    rw [Meaning.argVals_one _ hns, ← hval]
    have hfill : fill ρ expandPower.1 = pow (add as) (.int n) := by
      have e1 : argName expandPower.1 = none := by decide +kernel
      simp [expandPower, pow, anyOf, tested, call, var, S, fill, fillL, argName, testName, coreName, hws, hwn, add]
    rw [hfill]
    have hgq : hasHead "System`Sequence" (genExpand as (possibleExponents n as.length)) = false := by simp [genExpand, hasHead, S]
    rw [Meaning.argVals_one _ hgq]
    refine .cons ?_ .nil
    intro v hv
    have hd : V.Denotes (pow (add as) (.int n)) v := by
      unfold Interp.Denotes
      rw [Meaning.argVals_one _ (by simp [pow, call, hasHead, S]), hv]
    obtain ⟨vs, h1, h2⟩ := den_inv (s := "System`Power") (by decide) (by simp [add, call, hasHead, S]) hd
    cases h1 with
    | @cons _ x _ _ h1 h1' =>
    cases h1' with
    | cons h3 h3' =>
    cases h3'
    have h3 := den_unique h3 (den_int _)
    subst h3
    have hx : V.meaning.val (.expr (.sym "System`Plus" :: as)) = some x := by
      have := h1
      unfold Interp.Denotes at this
      rw [Meaning.argVals_one _ (by simp [add, call, hasHead, S])] at this
      simpa [add, call, S] using this
    obtain ⟨vs, hvs, rfl⟩ := sum_values has hx
    rw [arith_power] at h2
    simp only [List.foldr, Option.bind_some, powValue_one] at h2
    rw [Int.cast_natCast, powValue_natCast (by omega), Option.some.injEq] at h2
    subst h2
    have hsums := hS.sums as hpc
    have := den_genExpand hvs hsums.2 hsums.1 hn
    unfold Interp.Denotes at this
    rw [Meaning.argVals_one _ hgq] at this
    simpa using this
  flat := by
    intro s as largs q h1 h2 h3
    simp only [expandPower, pow, call, S, Ex.expr.injEq, List.cons.injEq, Ex.sym.injEq] at h2
    rw [← h2.1, show "System`" ++ "Power" = "System`Power" from rfl, hE.power.1] at h3
    cases h3


theorem expandProduct_finish {as : List Ex} {c : Ex} {p : Ex} (hs : ρ "Private`s" = some (add as)) (hc : ρ "Private`c" = some c) (ho : OnlyNames ρ p)
    (hp : ∀ s ∈ ["System`Map", "System`Function", "System`Times", "System`Slot"], s ∉ patNames p)
    (hf : ∀ a ∈ as, Frag ExpandHead a) (hfc : Frag ExpandHead c) (he : ev (add as) = add as) :
    finish ev (subst ρ expandProduct.2) = add (as.map (timesSlot c)) := by
  have hfin : as.map (finish ev) = as := by
    rw [List.map_congr_left (fun a ha => finish_frag (fun s h => expandHead_not h) (hf a ha))]; simp
  have hsum : finish ev (.expr (.sym "System`Plus" :: as)) = .expr (.sym "System`Plus" :: as) := by rw [finish_plain (by decide), hfin]
  have h1 : ρ "System`Map" = none := ho.none (hp _ (by simp))
  have h2 : ρ "System`Function" = none := ho.none (hp _ (by simp))
  have h3 : ρ "System`Times" = none := ho.none (hp _ (by simp))
  have h4 : ρ "System`Slot" = none := ho.none (hp _ (by simp))
  have e1 : subst ρ expandProduct.2 = .expr [.sym "System`Map", .expr [.sym "System`Function", .expr [.sym "System`Times", c, .expr [.sym "System`Slot", .int 1]]],
      .expr (.sym "System`Plus" :: as)] := by
    simp [expandProduct, mul, call, S, var, subst, substL, h1, h2, h3, h4, hs, hc, add]
  have he' : ev (.expr (.sym "System`Plus" :: as)) = .expr (.sym "System`Plus" :: as) := he
  have hfun : finish ev (.expr [.sym "System`Function", .expr [.sym "System`Times", c, .expr [.sym "System`Slot", .int 1]]]) =
      .expr [.sym "System`Function", .expr [.sym "System`Times", c, .expr [.sym "System`Slot", .int 1]]] := by
    rw [finish_plain (by decide), List.map_cons, List.map_nil, finish_plain (by decide), List.map_cons, List.map_cons, List.map_nil, finish_plain (by decide),
      finish_frag (fun s h => expandHead_not h) hfc]
    simp [finish]
  rw [e1, finish, finishL, finishL, finishL, finishL, hfun, hsum]
  simp [finish, runCall, he', add, call, S]

/-- The value of a product with a sum. -/
theorem product_value {as : List Ex} {c : Ex} {xs : List (Option ℂ)} {v : ℂ} (hf : ∀ a ∈ as, Frag ExpandHead a) (hc : hasHead "System`Sequence" c = false)
    (h : V.meaning.op "System`Times" (V.meaning.argVals c ++ (V.meaning.argVals (add as) ++ xs)) = some v) :
    V.meaning.op "System`Times" (V.meaning.argVals (add (as.map (timesSlot c))) ++ xs) = some v := by
  obtain ⟨l, h1, h2⟩ := meaning_op_def V h
  rw [Meaning.argVals_one _ hc, Meaning.argVals_one _ (by simp [add, call, hasHead, S])] at h1
  simp only [List.cons_append, List.nil_append] at h1
  obtain ⟨x, y, l, rfl⟩ : ∃ x y l', l = x :: y :: l' := by
    match l, h1 with
    | [], h1 => simp at h1
    | [x], h1 => simp at h1
    | x :: y :: l, _ => exact ⟨x, y, l, rfl⟩
  simp only [List.map_cons, List.cons.injEq] at h1
  obtain ⟨h3, h4, h5⟩ := h1
  obtain ⟨vs, hvs, rfl⟩ := sum_values (V := V) hf (by simpa [add, call, S] using h4)
  have hcd : V.Denotes c x := by
    unfold Interp.Denotes
    rw [Meaning.argVals_one _ hc, h3]
  have hd := den_add (den_timesSlot hcd hvs)
  unfold Interp.Denotes at hd
  rw [hd, h5]
  rw [arith_times] at h2
  have : ([some ((vs.map (x * ·)).sum)] ++ l.map some : List (Option ℂ)) = ((vs.map (x * ·)).sum :: l).map some := by simp
  rw [this, meaning_op_some, arith_times, ← h2]
  rw [List.prod_cons, List.prod_cons, List.prod_cons, List.sum_map_mul_left, List.map_id', mul_assoc]

/-- What the names `c` and `s` of a product stand for. -/
theorem product_names (hE : ArithEnv env []) (hfr : ∀ b ∈ pieces a, Frag ExpandHead b)
    (htc : Taken env (· ∈ pieces a) ρ false "System`Times" (any "c")) (hts : Taken env (· ∈ pieces a) ρ false "System`Times" (anyOf "s" "Plus")) :
    ∃ c as, ρ "Private`c" = some c ∧ ρ "Private`s" = some (add as) ∧ Frag ExpandHead c ∧ hasHead "System`Sequence" c = false ∧ add as ∈ pieces a := by
  have hshc : callShape env false "System`Times" (any "c") = ⟨1, unlimited, .expr [S "Blank"], some "Private`c", false, .sym "System`Times", none⟩ := by
    simp [callShape, hE.times, shape, any, call, var, S, testShape, namedShape, bodyShape]
  have hshs : callShape env false "System`Times" (anyOf "s" "Plus") = ⟨1, 1, .expr [S "Blank", S "Plus"], some "Private`s", false, .sym "System`Times", none⟩ := by
    simp [callShape, hE.times, shape, anyOf, call, var, S, testShape, namedShape, bodyShape]
  obtain ⟨c, hc, hcq, hc'⟩ := htc.flatArg (x := "Private`c") (by decide +kernel) (by rw [hshc]) (by decide) (by rw [hshc])
  obtain ⟨ws, hws, hws'⟩ := hts.one (x := "Private`s") (by decide +kernel) (by rw [hshs]) (by rw [hshs]) (by simp [hE.times])
  obtain ⟨as, rfl, has⟩ := frag_plus (hfr ws hws'.prop) (hws'.head _ (by rw [hshs]; simp [blankHead, S]))
  refine ⟨c, as, hc, hws, ?_, hcq, hws'.prop⟩
  rcases hc' with hc' | ⟨cs, rfl, _, hcs⟩
  · exact hfr c hc'.prop
  · exact .app ⟨by decide, by decide, by decide⟩ (fun b hb => hfr b (hcs b hb).prop)

/-- The rule for products keeps the value. -/
theorem expandProduct_at [env.Exact] (hE : ArithEnv env []) (hS : ExpandSetup env m ev e) (ha : a ∈ pieces e) :
    RuleAt V.meaning Refines env m expandProduct.1 expandProduct.2 (finish ev) a where
  hit := by
    intro q hq
    have hep : EPat expandProduct.1 := epatB_sound (n := 20) (by decide +kernel)
    have hfr := fun b hb => pieces_frag (H := ExpandHead) ⟨by decide, by decide, by decide⟩ ⟨by decide, by decide, by decide⟩ hS.frag b hb
    have hm := C20_sound_partial env m a expandProduct.1 q hep (frag_noReal (hfr a ha)) hq
    have ho := isMatchQ_names hep hq
    have hcl := hS.clash a ha expandProduct.1 (by simp [expandPatterns]) q hq
    obtain ⟨hval, ht⟩ := val_of_match (M := V.meaning) (fun s hs => arith_lawful hE V hs) (fpat_of (n := 20) (by decide +kernel)) hcl hm
    rw [replacePD_bindings]
    generalize bindingsOf q = ρ at *
    obtain ⟨c, as, hc, hs, hfc, hcq, hpc⟩ := product_names hE (fun b hb => hfr b (pieces_trans ha hb)) (ht (false, "System`Times", any "c") (by decide +kernel))
      (ht (false, "System`Times", anyOf "s" "Plus") (by decide +kernel))
    have has := (frag_args (hfr _ (pieces_trans ha hpc))).2
    rw [expandProduct_finish hs hc ho (by decide +kernel) has hfc (hS.evaluated _ (pieces_trans ha hpc))]
    have hns : hasHead "System`Sequence" a = false := frag_noHead (H := ExpandHead) (fun h => h.2.1 rfl) (hfr a ha)
    rw [Meaning.argVals_one _ hns, ← hval]
    have hfill : fill ρ expandProduct.1 = .expr [.sym "System`Times", c, add as] := by
      simp [expandProduct, mul, any, anyOf, call, var, S, fill, fillL, argName, testName, coreName, hs, hc]
    rw [hfill, Meaning.argVals_one _ (e := add (as.map (timesSlot c))) (by simp [add, call, hasHead, S])]
    refine .cons ?_ .nil
    intro v hv
    rw [Meaning.val_app, Meaning.vals_cons, Meaning.vals_cons, Meaning.vals_nil] at hv
    have := product_value has hcq hv
    rw [Meaning.argVals_one _ (e := add (as.map (timesSlot c))) (by simp [add, call, hasHead, S]), List.append_nil, times_one] at this
    exact this
  flat := by
    intro s bs largs q h1 h2 h3 hq
    simp only [expandProduct, mul, call, S, Ex.expr.injEq, List.cons.injEq, Ex.sym.injEq] at h2
    obtain ⟨rfl, rfl⟩ := h2
    change isMatchQ env m a (looseLHS (env.orderless "System`Times") (.sym "System`Times") _) [] = _ at hq
    change List.Forall₂ Refines _ (V.meaning.argVals (finish ev (replacePD (looseRHS (env.orderless "System`Times") (.sym "System`Times") _) q)))
    rw [hE.times.2.1] at hq ⊢
    change isMatchQ env m a (looseLHS true (S "Times") [any "c", anyOf "s" "Plus"]) [] = _ at hq
    generalize hpat : looseLHS true (S "Times") [any "c", anyOf "s" "Plus"] = pat at hq
    have hep : EPat pat := by rw [← hpat]; exact epatB_sound (n := 20) (by decide +kernel)
    have hfr := fun b hb => pieces_frag (H := ExpandHead) ⟨by decide, by decide, by decide⟩ ⟨by decide, by decide, by decide⟩ hS.frag b hb
    have hm := C20_sound_partial env m a pat q hep (frag_noReal (hfr a ha)) hq
    have ho := isMatchQ_names hep hq
    have hcl := hS.clash a ha pat (by rw [← hpat]; simp [expandPatterns]) q hq
    obtain ⟨hval, ht⟩ := val_of_match (M := V.meaning) (fun s hs => arith_lawful hE V hs) (by rw [← hpat]; exact fpat_of (n := 20) (by decide +kernel)) hcl hm
    rw [replacePD_bindings]
    generalize bindingsOf q = ρ at *
    subst hpat
    obtain ⟨c, as, hc, hs, hfc, hcq, hpc⟩ := product_names hE (fun b hb => hfr b (pieces_trans ha hb)) (ht (false, "System`Times", any "c") (by decide +kernel))
      (ht (false, "System`Times", anyOf "s" "Plus") (by decide +kernel))
    have has := (frag_args (hfr _ (pieces_trans ha hpc))).2
    have hfin := expandProduct_finish hs hc ho (by decide +kernel) has hfc (hS.evaluated _ (pieces_trans ha hpc))
    have hte := ht (false, "System`Times", looseEnd endName) (by decide +kernel)
    have hshe : callShape env false "System`Times" (looseEnd endName) = ⟨0, unlimited, .expr [S "Blank"], some endName, false, S "Sequence", none⟩ := by
      simp [callShape, hE.times, shape, looseEnd, call, var, S, testShape, namedShape, bodyShape]
    obtain ⟨w, hw, hwf⟩ : ∃ w, ρ endName = some w ∧ finish ev w = w := by
      obtain ⟨y, cs, k1, k2, k3, k4, k5⟩ := hte
      rw [show argName (looseEnd endName) = some endName by decide +kernel] at k1
      cases k1
      refine ⟨_, k2, ?_⟩
      have hcs : ∀ b ∈ cs, finish ev b = b := fun b hb => finish_frag (fun s h => expandHead_not h) (hfr b (pieces_trans ha (k5 b hb).1))
      have hseq : finish ev (.expr (S "Sequence" :: cs)) = .expr (S "Sequence" :: cs) := by
        rw [show S "Sequence" = .sym "System`Sequence" from rfl, finish_plain (by decide), List.map_congr_left hcs]; simp
      rw [hshe]
      rw [Shape.value.eq_def]
      split
      · simpa using hseq
      · split
        · exact hcs _ (by simp)
        · exact hseq
      · exact hseq
    have hT : ρ "System`Times" = none := ho.none (by decide +kernel)
    have e1 : subst ρ (looseRHS true (.sym "System`Times") (call "Map" [call "Function" [mul [var "c", call "Slot" [.int 1]]], var "s"])) =
        .expr [.sym "System`Times", subst ρ expandProduct.2, w] := by
      simp [looseRHS, subst, substL, hT, hw, expandProduct]
    have hns : hasHead "System`Sequence" a = false := frag_noHead (H := ExpandHead) (fun h => h.2.1 rfl) (hfr a ha)
    have hfill : fill ρ (looseLHS true (S "Times") [any "c", anyOf "s" "Plus"]) = .expr [.sym "System`Times", c, add as, w] := by
      simp [looseLHS, looseEnd, any, anyOf, call, var, S, fill, fillL, argName, testName, coreName, hs, hc, hw]
    have e2 : finish ev (.expr [.sym "System`Times", subst ρ expandProduct.2, w]) = .expr [.sym "System`Times", add (as.map (timesSlot c)), w] := by
      rw [finish_plain (by decide), List.map_cons, List.map_cons, List.map_nil, hfin, hwf]
    change List.Forall₂ Refines _ (V.meaning.argVals (finish ev (subst ρ (looseRHS true (.sym "System`Times") (call "Map" [call "Function" [mul [var "c", call "Slot" [.int 1]]], var "s"])))))
    rw [e1, e2, Meaning.argVals_one _ hns, ← hval, hfill, Meaning.argVals_app (by decide)]
    refine .cons ?_ .nil
    intro v hv
    rw [Meaning.val_app, Meaning.vals_cons, Meaning.vals_cons] at hv
    rw [Meaning.vals_cons]
    exact product_value has hcq hv


/-- One of the two rules, applied everywhere, keeps the value. -/
theorem expand_pass [env.Exact] (hE : ArithEnv env []) (hS : ExpandSetup env m ev e) {rule : Ex × Ex} (hr : rule ∈ [expandPower, expandProduct]) {e' : Ex}
    (h : replaceAll env m "" rule.1 rule.2 e = some e') : List.Forall₂ Refines (V.meaning.argVals e) (V.meaning.argVals (finish ev e')) := by
  have hfr := fun b hb => pieces_frag (H := ExpandHead) ⟨by decide, by decide, by decide⟩ ⟨by decide, by decide, by decide⟩ hS.frag b hb
  have hep : EPat rule.1 ∧ rule.1 ∈ expandPatterns := by
    simp only [List.mem_cons, List.not_mem_nil, or_false] at hr
    rcases hr with rfl | rfl
    · exact ⟨epatB_sound (n := 20) (by decide +kernel), by simp [expandPatterns]⟩
    · exact ⟨epatB_sound (n := 20) (by decide +kernel), by simp [expandPatterns]⟩
  refine replaceAll_keeps (H := ExpandHead) (fun _ _ h => h) (fun s _ xs ys h => meaning_mono V s xs ys h) (fun e he => finish_frag (fun s h => expandHead_not h) he)
    (fun s qs h => finish_plain (expandHead_not h) qs) _ e e' (Nat.lt_succ_self _) hS.frag ?_ ?_ h
  · intro s q hs hq
    have hm := C20_sound_partial env m _ rule.1 q hep.1 rfl hq
    obtain ⟨T, hD, _⟩ := hS.clash _ hs rule.1 hep.2 q hq
    simp only [List.mem_cons, List.not_mem_nil, or_false] at hr
    rcases hr with rfl | rfl
    · exact matches_symbol (s := "System`Power") hD (by decide) (fun q hq => hq) (pieces_self _) (by decide +kernel) hm
    · exact matches_symbol (s := "System`Times") hD (by decide) (fun q hq => hq) (pieces_self _) (by decide +kernel) hm
  · intro a ha
    simp only [List.mem_cons, List.not_mem_nil, or_false] at hr
    rcases hr with rfl | rfl
    · exact expandPower_at hE hS ha
    · exact expandProduct_at hE hS ha

end

end Expreduce
