import Verif.Proofs.SolveSub
import Verif.Proofs.RuleTool

/-! A match of a call of a function that is not `Orderless`: the arguments are cut into blocks, one for each argument pattern. -/

namespace Expreduce
open Ex

/-- The block `cs` of arguments taken by the argument pattern `p`. -/
structure Blk (env : MEnv) (U : Ex → Prop) (ρ : String → Option Ex) (s : String) (p : Ex) (cs : List Ex) : Prop where
  lo : (callShape env false s p).lo ≤ cs.length
  hi : (cs.length : Int) ≤ (callShape env false s p).hi
  elems : ∀ c ∈ cs, U c ∧ Matches env ρ (callShape env false s p).elem c
  name : ∀ x, (callShape env false s p).name = some x → ρ x = some ((callShape env false s p).value (env.oneIdentity s) cs)

variable {A' : Type _} {M : Meaning A'} {env : MEnv} {L P U T : _}

theorem forall₂_of_index {α β : Type _} {R : α → β → Prop} : ∀ (ps : List α) (Bs : List β), Bs.length = ps.length →
    (∀ (j : Nat) p b, ps[j]? = some p → Bs[j]? = some b → R p b) → List.Forall₂ R ps Bs
  | [], [], _, _ => .nil
  | [], _ :: _, h, _ => by simp at h
  | _ :: _, [], h, _ => by simp at h
  | p :: ps, b :: Bs, h, hR => .cons (hR 0 p b rfl rfl) (forall₂_of_index ps Bs (by simpa using h) (fun j q c h1 h2 => hR (j + 1) q c h1 h2))

/-- The blocks. -/
theorem blocks_inv (hM : ∀ s, L s → M.Lawful env s) (hD : Distinct env L P U T) {ρ : String → Option Ex} (hρ : ∀ x v, ρ x = some v → T v) {s : String}
    {ps : List Ex} {a : Ex} (h1 : L s) (h2 : s ∉ specialHeads) (h3 : s ≠ "System`Sequence") (ho : env.orderless s = false)
    (hown : ∀ p ∈ ps, noOwnDefault p = true) (hP : ∀ q ∈ subexprs (.expr (.sym s :: ps)), P q) (hU : U a)
    (hm : Matches env ρ (.expr (.sym s :: ps)) a) :
    ∃ Bs, List.Forall₂ (Blk env U ρ s) ps Bs ∧ M.argVals a = [M.op s (M.vals Bs.flatten)] := by
  obtain ⟨as, A, hc⟩ := app_inv (M := M) hM hD h1 h2 h3 hP hU hm
  have hval := argsOk hown h1 hD hρ hc
  have hlay : A.flatten = List.range as.length := by simpa [Layout, ho] using hc.layout
  have hmap : ∀ A : List (List Nat), (A.map (fun is => is.filterMap (as[·]?))).flatten = A.flatten.filterMap (as[·]?) := by
    intro A
    induction A with
    | nil => rfl
    | cons is A ih => simp only [List.map_cons, List.flatten_cons, ih, List.filterMap_append]
  have hflat : (A.map (fun is => is.filterMap (as[·]?))).flatten = as := by rw [hmap, hlay, picks_all]
  refine ⟨A.map (fun is => is.filterMap (as[·]?)), ?_, by rw [hflat]; exact hc.value⟩
  refine forall₂_of_index _ _ (by simpa using hc.len) ?_
  intro j p b hp hb
  rw [List.getElem?_map, Option.map_eq_some_iff] at hb
  obtain ⟨is, his, rfl⟩ := hb
  have hsub : is.Sublist (List.range as.length) := hlay ▸ List.sublist_flatten_of_mem (List.mem_of_getElem? his)
  have hlt : ∀ i ∈ is, i < as.length := fun i hi => List.mem_range.1 (hsub.subset hi)
  have hlen : (is.filterMap (as[·]?)).length = is.length := by
    clear hsub his
    induction is with
    | nil => rfl
    | cons i is ih =>
      rw [List.filterMap_cons, List.getElem?_eq_getElem (hlt i (by simp))]
      simp [ih (fun k hk => hlt k (by simp [hk]))]
  have hb := hc.bounds j p is hp his
  refine ⟨by rw [hlen]; exact hb.1, by rw [hlen]; exact hb.2, ?_, ?_⟩
  · intro c hcm
    rw [List.mem_filterMap] at hcm
    obtain ⟨i, hi, hic⟩ := hcm
    exact ⟨hc.mem c (List.mem_of_getElem? hic), hc.elems j p is i c hp his hi hic⟩
  · intro x hx
    obtain ⟨v, hv, hsame⟩ := hc.names j p is x hp his hx
    rw [hv]
    congr 1
    refine hval p (List.mem_of_getElem? hp) _ v ?_ ⟨x, hv⟩ hsame
    have := hsub.filterMap (as[·]?)
    rwa [picks_all] at this

end Expreduce
