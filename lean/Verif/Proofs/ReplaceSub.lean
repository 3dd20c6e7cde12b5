import Verif.Proofs.ReplaceLit

/-! Substitution by replacement: symbol rules and slots. -/

namespace Expreduce
open Ex

theorem rewriteOut_atom {skip hit} {e : Ex} (h : isAtom e = true) : rewriteOut skip hit e = (hit e).getD e := by
  cases e with
  | expr ps => simp [isAtom] at h
  | _ =>
    rw [rewriteOut]
    · split <;> simp_all
    · simp

theorem rewriteOutL_eq (skip hit) (ps : List Ex) : rewriteOutL skip hit ps = ps.map (rewriteOut skip hit) := by
  induction ps with
  | nil => rfl
  | cons p ps ih => simp [rewriteOutL, ih]

theorem substL_eq (ρ) (ps : List Ex) : substL ρ ps = ps.map (subst ρ) := by
  induction ps with
  | nil => rfl
  | cons p ps ih => simp [substL, ih]

theorem rewriteOut_none {skip hit} : ∀ e : Ex, (∀ u ∈ subexprs e, hit u = none) → rewriteOut skip hit e = e := by
  intro e
  induction e using Ex.ind with
  | hexpr ps ih =>
    intro h
    rw [rewriteOut]
    split
    · rfl
    · rw [h _ (subexprs_self _)]
      simp only [rewriteOutL_eq, Ex.expr.injEq]
      conv_rhs => rw [← List.map_id ps]
      apply List.map_congr_left
      intro p hp
      exact ih p hp (fun u hu => h u (by simp only [subexprs]; exact List.mem_cons_of_mem _ (mem_subexprsL hp hu)))
  | _ => intro h; rw [rewriteOut_atom rfl, h _ (subexprs_self _)]; rfl

theorem mem_subexprs_part {ps : List Ex} {p u : Ex} (hp : p ∈ ps) (hu : u ∈ subexprs p) : u ∈ subexprs (.expr ps) := by
  simp only [subexprs]
  exact List.mem_cons_of_mem _ (mem_subexprsL hp hu)

/-- The function that binds one symbol. -/
def bind1 (x : String) (v : Ex) : String → Option Ex := fun s => if s = x then some v else none

theorem rewriteOut_subst {skip : Ex → Bool} {x : String} {v : Ex} : ∀ e : Ex, (∀ u ∈ subexprs e, skip u = false) →
    rewriteOut skip (onlyAt (.sym x) v) e = subst (bind1 x v) e := by
  intro e
  induction e using Ex.ind with
  | hexpr ps ih =>
    intro h
    rw [rewriteOut, if_neg (by simp [h _ (subexprs_self _)])]
    simp only [onlyAt, reduceCtorEq, if_false, subst, rewriteOutL_eq, substL_eq, Ex.expr.injEq]
    apply List.map_congr_left
    intro p hp
    exact ih p hp (fun u hu => h u (mem_subexprs_part hp hu))
  | hsym s =>
    intro h
    rw [rewriteOut_atom rfl]
    by_cases hs : s = x
    · simp [onlyAt, subst, bind1, hs]
    · simp [onlyAt, subst, bind1, hs]
  | _ => intro h; rw [rewriteOut_atom rfl]; simp [onlyAt, subst]

theorem containsSymbol_iff_mem (x : String) : ∀ e : Ex, containsSymbol x e = true ↔ .sym x ∈ subexprs e := by
  intro e
  induction e using Ex.ind with
  | hexpr ps ih =>
    simp only [containsSymbol, subexprs, List.mem_cons, reduceCtorEq, false_or]
    rw [containsSymbolL_iff]
    constructor
    · rintro ⟨p, hp, h⟩
      exact mem_subexprsL hp ((ih p hp).1 h)
    · intro h
      clear * - h ih
      induction ps with
      | nil => simp [subexprsL] at h
      | cons p ps ihp =>
        simp only [subexprsL, List.mem_append] at h
        rcases h with h | h
        · exact ⟨p, by simp, (ih p (by simp)).2 h⟩
        · obtain ⟨q, hq, hq'⟩ := ihp (fun q hq => ih q (by simp [hq])) h
          exact ⟨q, by simp [hq], hq'⟩
  | hsym s =>
    simp only [containsSymbol, subexprs, List.mem_singleton, Ex.sym.injEq, beq_iff_eq]
    exact eq_comm
  | _ => simp [containsSymbol, subexprs]

theorem subst_bind1_id {x : String} {v e : Ex} (h : containsSymbol x e = false) : subst (bind1 x v) e = e := by
  refine containsSymbol_subst_none _ e ?_
  intro y hy
  simp only [bind1, ne_eq] at hy
  by_cases hyx : y = x
  · rw [hyx]; exact h
  · simp [hyx] at hy

theorem subst_comp {ρ : String → Option Ex} {x : String} {v : Ex} (h : ∀ s w, ρ s = some w → containsSymbol x w = false) : ∀ e : Ex,
    subst (bind1 x v) (subst ρ e) = subst (fun s => (ρ s).orElse (fun _ => bind1 x v s)) e := by
  intro e
  induction e using Ex.ind with
  | hexpr ps ih =>
    simp only [subst, substL_eq, Ex.expr.injEq, List.map_map]
    apply List.map_congr_left
    intro p hp
    exact ih p hp
  | hsym s =>
    simp only [subst]
    cases hs : ρ s with
    | none => simp [subst]
    | some w => simp [subst_bind1_id (h s w hs)]
  | _ => simp [subst]

theorem subexprs_trans {a b c : Ex} (h1 : a ∈ subexprs b) (h2 : b ∈ subexprs c) : a ∈ subexprs c := by
  induction c using Ex.ind with
  | hexpr ps ih =>
    simp only [subexprs, List.mem_cons, mem_subexprsL_iff] at h2
    rcases h2 with rfl | ⟨p, hp, h⟩
    · exact h1
    · exact mem_subexprs_part hp (ih p hp h)
  | _ => simp [subexprs] at h2; subst h2; exact h1

theorem wellFormed_subexprs {e u : Ex} (h : wellFormed e = true) (hu : u ∈ subexprs e) : wellFormed u = true := by
  induction e using Ex.ind with
  | hexpr ps ih =>
    simp only [subexprs, List.mem_cons, mem_subexprsL_iff] at hu
    rcases hu with rfl | ⟨p, hp, hu⟩
    · exact h
    · simp only [wellFormed, Bool.and_eq_true] at h
      exact ih p hp (wellFormedL_mem h.2 p hp) hu
  | _ => simp [subexprs] at hu; subst hu; exact h

theorem wellFormed_expr_iff (ps : List Ex) : wellFormed (.expr ps) = true ↔ ps ≠ [] ∧ ∀ p ∈ ps, wellFormed p = true := by
  simp only [wellFormed, Bool.and_eq_true, Bool.not_eq_true']
  constructor
  · rintro ⟨h1, h2⟩
    exact ⟨by rintro rfl; simp at h1, wellFormedL_mem h2⟩
  · rintro ⟨h1, h2⟩
    refine ⟨by cases ps <;> simp_all, ?_⟩
    clear h1
    induction ps with
    | nil => rfl
    | cons p ps ih => simp [wellFormedL, h2 p (by simp), ih (fun q hq => h2 q (by simp [hq]))]

theorem wellFormed_subst {ρ : String → Option Ex} (h : ∀ s w, ρ s = some w → wellFormed w = true) : ∀ e : Ex, wellFormed e = true →
    wellFormed (subst ρ e) = true := by
  intro e
  induction e using Ex.ind with
  | hexpr ps ih =>
    intro hw
    rw [wellFormed_expr_iff] at hw
    rw [subst, substL_eq, wellFormed_expr_iff]
    refine ⟨by simpa using hw.1, ?_⟩
    intro q hq
    obtain ⟨p, hp, rfl⟩ := List.mem_map.1 hq
    exact ih p hp (hw.2 p hp)
  | hsym s =>
    intro _
    simp only [subst]
    cases hs : ρ s with
    | none => rfl
    | some w => exact h s w hs
  | _ => intro h; exact h

theorem containsSymbol_subst {ρ : String → Option Ex} {y : String} (h : ∀ s w, ρ s = some w → containsSymbol y w = false) : ∀ e : Ex,
    containsSymbol y e = false → containsSymbol y (subst ρ e) = false := by
  intro e
  induction e using Ex.ind with
  | hexpr ps ih =>
    intro hc
    simp only [containsSymbol] at hc
    rw [← Bool.not_eq_true, containsSymbolL_iff] at hc
    simp only [subst, containsSymbol, substL_eq]
    rw [← Bool.not_eq_true, containsSymbolL_iff]
    rintro ⟨q, hq, hqc⟩
    obtain ⟨p, hp, rfl⟩ := List.mem_map.1 hq
    rw [ih p hp (by rw [← Bool.not_eq_true]; exact fun h => hc ⟨p, hp, h⟩)] at hqc
    simp at hqc
  | hsym s =>
    intro hc
    simp only [subst]
    cases hs : ρ s with
    | none => exact hc
    | some w => exact h s w hs
  | _ => intro h; exact h

/-- Matching against a symbol. -/
theorem decides_symbol {env : MEnv} {m : Nat} {x : String} {v e : Ex} (hm : 1 ≤ m) (hw : wellFormed e = true)
    (hcl : ∀ u ∈ subexprs e, hash u = hash (.sym x) → u = .sym x) : Decides env m (.sym x) v (onlyAt (.sym x) v) e := by
  intro u hu
  obtain ⟨n, rfl⟩ : ∃ n, m = n + 1 := ⟨m - 1, by omega⟩
  have hne : u ≠ .expr [] := by rintro rfl; simpa [wellFormed] using wellFormed_subexprs hw hu
  have hmatch := matchF_atomHit (env := env) (n := n) (x := u) (c := .sym x) (pm := []) hne rfl
  unfold isMatchQ
  rw [hmatch]
  by_cases hux : u = .sym x
  · have : atomHit u (.sym x) = true := by subst hux; simp [atomHit, isAtom, isSameQ]
    rw [this]
    simp only [onlyAt, hux, if_true]
    exact ⟨_, rfl, rfl⟩
  · have : atomHit u (.sym x) = false := by
      by_contra hc
      simp only [Bool.not_eq_false, atomHit, Bool.and_eq_true] at hc
      rw [isSameQ_lit (by rfl)] at hc
      exact hux (hcl u hu (by simpa using hc.2))
    rw [this]
    simp only [onlyAt, hux, if_false]
    exact ⟨_, rfl⟩

/-- Matching against a literal `s[c1, ..., ck]`. -/
theorem decides_lit {env : MEnv} {m : Nat} {s : String} {cs : List Ex} {v e : Ex} (h : LitPat env s cs) (hm : 3 ≤ m) (hw : wellFormed e = true)
    (hcl : ∀ u ∈ subexprs e, ∀ c ∈ subexprs (.expr (.sym s :: cs)), hash u = hash c → u = c) :
    Decides env m (.expr (.sym s :: cs)) v (onlyAt (.expr (.sym s :: cs)) v) e := by
  intro u hu
  obtain ⟨n, rfl⟩ : ∃ n, m = n + 3 := ⟨m - 3, by omega⟩
  have hmatch := matchF_lit (n := n) (u := u) h (wellFormed_subexprs hw hu) (fun x hx => hcl x (subexprs_trans hx hu))
  unfold isMatchQ
  rcases hmatch with ⟨hr | hr, hux⟩ | ⟨hr, hux⟩
  · rw [hr]
    simp only [onlyAt, hux, if_true]
    exact ⟨_, rfl, rfl⟩
  · rw [hr]
    simp only [onlyAt, hux, if_true]
    exact ⟨_, rfl, rfl⟩
  · rw [hr]
    simp only [onlyAt, hux, if_false]
    exact ⟨_, rfl⟩

/-- The set of skipped subexpressions may be changed if it is never met. -/
theorem rewritten_mono {env : MEnv} {skip skip' : Ex → Prop} {lhs rhs e e' : Ex} (h : ∀ u ∈ subexprs e, ¬ skip u)
    (hR : Rewritten env skip lhs rhs e e') (h' : ∀ u ∈ subexprs e, ¬ skip' u) : Rewritten env skip' lhs rhs e e' := by
  induction e using Ex.ind generalizing e' with
  | hexpr ps ih =>
    have hF : ∀ {qs}, List.Forall₂ (Rewritten env skip lhs rhs) ps qs → List.Forall₂ (Rewritten env skip' lhs rhs) ps qs := by
      intro qs hf
      rw [List.forall₂_iff_get] at hf ⊢
      refine ⟨hf.1, ?_⟩
      intro i h1 h2
      exact ih _ (List.get_mem _ _) (fun u hu => h u (mem_subexprs_part (List.get_mem _ _) hu)) (hf.2 i h1 h2)
        (fun u hu => h' u (mem_subexprs_part (List.get_mem _ _) hu))
    cases hR with
    | skip hs => exact absurd hs (h _ (subexprs_self _))
    | hit hs hm ho => exact .hit (h' _ (subexprs_self _)) hm ho
    | atom hs ha => simp [isAtom] at ha
    | parts hs hn hf => exact .parts (h' _ (subexprs_self _)) hn (hF hf)
    | clash hs hn hf hh => exact .clash (h' _ (subexprs_self _)) hn (hF hf) hh
  | _ =>
    cases hR with
    | skip hs => exact absurd hs (h _ (subexprs_self _))
    | hit hs hm ho => exact .hit (h' _ (subexprs_self _)) hm ho
    | atom hs ha hn => exact .atom (h' _ (subexprs_self _)) ha hn

end Expreduce
