import Verif.Spec.Graphics
import Mathlib.Data.List.Basic
import Mathlib.Tactic.SplitIfs

/-! # Proofs about rendering -/

namespace Expreduce
open Ex

namespace Graphics

/-- The style after some directives, starting from any style. -/
def penOver (C : Conv) (base : Pen) (ds : List Ex) : Pen :=
  let c := (lastSome (colourOf C) ds).getD (base.r, base.g, base.b)
  { r := c.1, g := c.2.1, b := c.2.2, a := (lastSome (alphaOf C) ds).getD base.a,
    width := (lastSome (thicknessOf C) ds).getD base.width }

theorem lastSome_append {β : Type} (f : Ex → Option β) (xs ys : List Ex) :
    lastSome f (xs ++ ys) = (lastSome f ys).or (lastSome f xs) := by
  simp [lastSome, List.reverse_append, List.findSome?_append]

theorem lastSome_nil {β : Type} (f : Ex → Option β) : lastSome f [] = none := rfl

theorem getD_or {β : Type} (a b : Option β) (c : β) : (a.or b).getD c = a.getD (b.getD c) := by
  cases a <;> simp

theorem penOver_append (C : Conv) (base : Pen) (xs ys : List Ex) :
    penOver C base (xs ++ ys) = penOver C (penOver C base xs) ys := by
  simp only [penOver, lastSome_append, getD_or]

theorem penOver_nil (C : Conv) (base : Pen) : penOver C base [] = base := by
  simp [penOver, lastSome_nil]

theorem penUnder_eq (C : Conv) (ds : List Ex) : penUnder C ds = penOver C blackPen ds := rfl

theorem argsOf_some {h : String} {e : Ex} {as : List Ex} (H : argsOf h e = some as) : e = .expr (.sym h :: as) := by
  unfold argsOf at H
  split at H
  · split_ifs at H with hs
    · cases H; rw [hs]
  · exact absurd H (by simp)

theorem argsOf_expr (h : String) (as : List Ex) : argsOf h (.expr (.sym h :: as)) = some as := by simp [argsOf]

theorem hasHead_iff {h : String} {e : Ex} : hasHead h e = true ↔ ∃ as, argsOf h e = some as := by
  unfold hasHead argsOf
  split <;> simp

theorem argsOf_ne {h h' : String} {e : Ex} {as : List Ex} (H : argsOf h e = some as) (hne : h ≠ h') :
    argsOf h' e = none := by
  rw [argsOf_some H]; simp [argsOf, hne]

theorem setDirective_some {C : Conv} {pen pen' : Pen} {d : Ex} (h : setDirective C pen d = some pen') :
    DirectiveOk d ∧ pen' = penOver C pen [d] := by
  unfold setDirective at h
  split at h
  · rename_i as hr
    have ho := argsOf_ne (h' := "System`Opacity") hr (by decide)
    have ht := argsOf_ne (h' := "System`AbsoluteThickness") hr (by decide)
    unfold setColor at h
    split at h
    · rename_i x y z
      cases h
      refine ⟨⟨fun _ => ⟨x, y, z, argsOf_some hr⟩, ?_, ?_⟩, ?_⟩
      · intro hh; obtain ⟨as, has⟩ := hasHead_iff.1 hh; rw [ho] at has; cases has
      · intro hh; obtain ⟨as, has⟩ := hasHead_iff.1 hh; rw [ht] at has; cases has
      · simp [penOver, lastSome, colourOf, alphaOf, thicknessOf, hr, ht]
    · cases h
  · rename_i hr
    have hr' : ¬ hasHead "System`RGBColor" d = true := by
      intro hh; obtain ⟨as, has⟩ := hasHead_iff.1 hh; rw [hr] at has; cases has
    split at h
    · rename_i as ho
      have ht := argsOf_ne (h' := "System`AbsoluteThickness") ho (by decide)
      unfold setOpacity at h
      split at h
      · rename_i x
        cases h
        refine ⟨⟨fun hh => absurd hh hr', fun _ => ⟨x, argsOf_some ho⟩, ?_⟩, ?_⟩
        · intro hh; obtain ⟨as, has⟩ := hasHead_iff.1 hh; rw [ht] at has; cases has
        · simp [penOver, lastSome, colourOf, alphaOf, thicknessOf, hr, ht, ho]
      · cases h
    · rename_i ho
      have ho' : ¬ hasHead "System`Opacity" d = true := by
        intro hh; obtain ⟨as, has⟩ := hasHead_iff.1 hh; rw [ho] at has; cases has
      split at h
      · rename_i as ht
        unfold setThickness at h
        split at h
        · rename_i x
          cases h
          exact ⟨⟨fun hh => absurd hh hr', fun hh => absurd hh ho', fun _ => ⟨x, argsOf_some ht⟩⟩,
            by simp [penOver, lastSome, colourOf, alphaOf, thicknessOf, hr, ht, ho]⟩
        · cases h
      · rename_i ht
        have ht' : ¬ hasHead "System`AbsoluteThickness" d = true := by
          intro hh; obtain ⟨as, has⟩ := hasHead_iff.1 hh; rw [ht] at has; cases has
        cases h
        exact ⟨⟨fun hh => absurd hh hr', fun hh => absurd hh ho', fun hh => absurd hh ht'⟩,
            by simp [penOver, lastSome, colourOf, alphaOf, thicknessOf, hr, ht, ho]⟩

theorem setDirective_isSome {C : Conv} {pen : Pen} {d : Ex} (h : DirectiveOk d) :
    ∃ pen', setDirective C pen d = some pen' := by
  unfold setDirective
  split
  · rename_i as hr
    obtain ⟨x, y, z, rfl⟩ := h.1 (hasHead_iff.2 ⟨_, hr⟩)
    have := argsOf_some hr
    simp only [Ex.expr.injEq, List.cons.injEq] at this
    rw [← this.2]; exact ⟨_, rfl⟩
  · split
    · rename_i as hr
      obtain ⟨x, rfl⟩ := h.2.1 (hasHead_iff.2 ⟨_, hr⟩)
      have := argsOf_some hr
      simp only [Ex.expr.injEq, List.cons.injEq] at this
      rw [← this.2]; exact ⟨_, rfl⟩
    · split
      · rename_i as hr
        obtain ⟨x, rfl⟩ := h.2.2 (hasHead_iff.2 ⟨_, hr⟩)
        have := argsOf_some hr
        simp only [Ex.expr.injEq, List.cons.injEq] at this
        rw [← this.2]; exact ⟨_, rfl⟩
      · exact ⟨_, rfl⟩

theorem setDirectives_some {C : Conv} {ds : List Ex} : ∀ {pen pen' : Pen}, setDirectives C ds pen = some pen' →
    (∀ d ∈ ds, DirectiveOk d) ∧ pen' = penOver C pen ds := by
  induction ds with
  | nil => intro pen pen' h; cases h; exact ⟨by simp, (penOver_nil C pen).symm⟩
  | cons d ds ih =>
    intro pen pen' h
    unfold setDirectives at h
    split at h
    · cases h
    · rename_i p hp
      obtain ⟨h1, rfl⟩ := setDirective_some hp
      obtain ⟨h2, rfl⟩ := ih h
      refine ⟨by simpa using ⟨h1, h2⟩, ?_⟩
      rw [← penOver_append]; rfl

theorem setDirectives_isSome {C : Conv} {ds : List Ex} : ∀ {pen : Pen}, (∀ d ∈ ds, DirectiveOk d) →
    ∃ pen', setDirectives C ds pen = some pen' := by
  induction ds with
  | nil => intro pen _; exact ⟨_, rfl⟩
  | cons d ds ih =>
    intro pen h
    obtain ⟨p, hp⟩ := setDirective_isSome (C := C) (pen := pen) (h d (by simp))
    obtain ⟨p', hp'⟩ := ih (pen := p) (fun x hx => h x (by simp [hx]))
    exact ⟨p', by simp [setDirectives, hp, hp']⟩

/-- A list of points as an argument list. -/
def pointsEx (pts : List (Rat × Rat)) : List Ex := pts.map (fun p => .expr [S "List", .flt p.1, .flt p.2])

theorem listToPoint_some {C : Conv} {e : Ex} {q : Rat × Rat} (h : listToPoint C e = some q) :
    ∃ x y, e = .expr [S "List", .flt x, .flt y] ∧ q = (C.dbl x, C.dbl y) := by
  unfold listToPoint at h
  split at h
  · rename_i x y hx
    cases h; exact ⟨x, y, argsOf_some hx, rfl⟩
  · cases h

theorem listToPoint_mk (C : Conv) (x y : Rat) : listToPoint C (.expr [S "List", .flt x, .flt y]) = some (C.dbl x, C.dbl y) := rfl

theorem pointLoop_some {C : Conv} {ps : List Ex} : ∀ {s s' : Series}, pointLoop C ps s = some s' →
    ∃ pts, ps = pointsEx pts ∧ s' = { s with xs := s.xs ++ pts.map (fun q => C.dbl q.1), ys := s.ys ++ pts.map (fun q => C.dbl q.2) } := by
  induction ps with
  | nil => intro s s' h; cases h; exact ⟨[], rfl, by simp⟩
  | cons p ps ih =>
    intro s s' h
    unfold pointLoop at h
    split at h
    · cases h
    · rename_i x y hp
      obtain ⟨x0, y0, rfl, hq⟩ := listToPoint_some hp
      cases hq
      obtain ⟨pts, rfl, rfl⟩ := ih h
      exact ⟨(x0, y0) :: pts, rfl, by simp⟩

theorem pointLoop_mk (C : Conv) (pts : List (Rat × Rat)) : ∀ s : Series, ∃ s', pointLoop C (pointsEx pts) s = some s' := by
  induction pts with
  | nil => intro s; exact ⟨_, rfl⟩
  | cons p pts ih =>
    intro s
    show ∃ s', pointLoop C (.expr [S "List", .flt p.1, .flt p.2] :: pointsEx pts) s = some s'
    unfold pointLoop
    rw [listToPoint_mk]
    exact ih _

theorem renderLine_some {C : Conv} {g g' : List Series} {args : List Ex} {pen : Pen}
    (h : renderLine C g args pen = some g') :
    ∃ pts, Ex.expr (S "Line" :: args) = lineThrough pts ∧
      g' = g ++ [{ xs := pts.map (fun q => C.dbl q.1), ys := pts.map (fun q => C.dbl q.2), pen := pen }] := by
  unfold renderLine at h
  split at h
  · rename_i e
    split at h
    · cases h
    · rename_i points he
      split at h
      · cases h
      · rename_i s hs
        cases h
        obtain ⟨pts, rfl, rfl⟩ := pointLoop_some hs
        exact ⟨pts, by rw [argsOf_some he]; rfl, by simp⟩
  · cases h

theorem renderLine_mk {C : Conv} {g : List Series} {args : List Ex} {pen : Pen} {pts : List (Rat × Rat)}
    (h : Ex.expr (S "Line" :: args) = lineThrough pts) : ∃ g', renderLine C g args pen = some g' := by
  unfold lineThrough at h
  simp only [Ex.expr.injEq, List.cons.injEq, true_and] at h
  subst h
  obtain ⟨s', hs⟩ := pointLoop_mk C pts { xs := [], ys := [], pen := pen }
  refine ⟨g ++ [s'], ?_⟩
  have : argsOf "System`List" (Ex.expr (S "List" :: pointsEx pts)) = some (pointsEx pts) := argsOf_expr _ _
  show renderLine C g [Ex.expr (S "List" :: pointsEx pts)] pen = _
  simp only [renderLine, this, hs]

/-- The element of a list through which a place goes. -/
theorem picAt_list {es : List Ex} {i : Nat} {a : Ex} (h : es[i]? = some a) (p : List Nat) :
    picAt (.expr (.sym "System`List" :: es)) (i :: p) = picAt a p := by
  simp [picAt, argsOf_expr, h]

theorem inForce_list {es : List Ex} {i : Nat} {a : Ex} (h : es[i]? = some a) (p : List Nat) :
    inForce (.expr (.sym "System`List" :: es)) (i :: p) = (es.take i).flatMap directiveParts ++ inForce a p := by
  simp [inForce, argsOf_expr, h]

/-- The series that belong to a primitive drawn with a given style. -/
def SerOf (C : Conv) (e : Ex) (pen : Pen) (p : List Nat) (s : Series) : Prop :=
  ∃ pts, picAt e p = some (lineThrough pts) ∧
    s = { xs := pts.map (fun q => C.dbl q.1), ys := pts.map (fun q => C.dbl q.2), pen := penOver C pen (inForce e p) }

/-- A line stands at a place. -/
def LineAt (e : Ex) (p : List Nat) : Prop := ∃ a, picAt e p = some a ∧ hasHead "System`Line" a = true

/-- What a successful call does. -/
def PrimSome (C : Conv) (e : Ex) : Prop := ∀ g pen g' pen', renderPrimitive C e g pen = some (g', pen') →
  pen' = penOver C pen (directiveParts e) ∧
  (∀ p a, picAt e p = some a → LineOk a ∧ ∀ d ∈ directiveParts a, DirectiveOk d) ∧
  ∃ places ser, places.Pairwise (· < ·) ∧ (∀ p, p ∈ places ↔ LineAt e p) ∧
    List.Forall₂ (SerOf C e pen) places ser ∧ g' = g ++ ser

theorem picAt_leaf {e : Ex} (h : argsOf "System`List" e = none) {p : List Nat} {a : Ex} (ha : picAt e p = some a) :
    p = [] ∧ a = e := by
  cases p with
  | nil => simp [picAt] at ha; exact ⟨rfl, ha.symm⟩
  | cons i p => simp [picAt, h] at ha

theorem inForce_nil (e : Ex) : inForce e [] = [] := by cases e <;> rfl

theorem directiveParts_none {e : Ex} (h : argsOf "System`Directive" e = none) : directiveParts e = [] := by
  simp [directiveParts, h]

theorem lineOk_none {e : Ex} (h : argsOf "System`Line" e = none) : LineOk e := by
  intro hh; obtain ⟨as, has⟩ := hasHead_iff.1 hh; rw [h] at has; cases has

theorem primSome_skip (C : Conv) {e : Ex} (hl : argsOf "System`List" e = none) (hd : argsOf "System`Directive" e = none)
    (hn : argsOf "System`Line" e = none) (hr : ∀ g pen, renderPrimitive C e g pen = some (g, pen)) : PrimSome C e := by
  intro g pen g' pen' h
  rw [hr] at h; cases h
  refine ⟨by rw [directiveParts_none hd, penOver_nil], ?_, [], [], List.Pairwise.nil, ?_, List.Forall₂.nil, by simp⟩
  · intro p a ha
    obtain ⟨rfl, rfl⟩ := picAt_leaf hl ha
    refine ⟨lineOk_none hn, ?_⟩
    rw [directiveParts_none hd]; simp
  · intro p
    refine ⟨by simp, ?_⟩
    rintro ⟨a, ha, hh⟩
    obtain ⟨rfl, rfl⟩ := picAt_leaf hl ha
    obtain ⟨as, has⟩ := hasHead_iff.1 hh; rw [hn] at has; cases has

/-- The elements from position `i` on. -/
theorem all_some (C : Conv) (es : List Ex) (hes : ∀ e ∈ es, PrimSome C e) : ∀ (rest pre : List Ex) (g : List Series) (pen : Pen) (g' : List Series) (pen' : Pen),
    es = pre ++ rest → renderAll C rest g (penOver C pen (pre.flatMap directiveParts)) = some (g', pen') →
    (∀ i p a, pre.length ≤ i → picAt (.expr (.sym "System`List" :: es)) (i :: p) = some a → LineOk a ∧ ∀ d ∈ directiveParts a, DirectiveOk d) ∧
    ∃ places ser, places.Pairwise (· < ·) ∧
      (∀ p, p ∈ places ↔ ∃ i q, p = i :: q ∧ pre.length ≤ i ∧ LineAt (.expr (.sym "System`List" :: es)) p) ∧
      List.Forall₂ (SerOf C (.expr (.sym "System`List" :: es)) pen) places ser ∧ g' = g ++ ser := by
  intro rest
  induction rest with
  | nil =>
    intro pre g pen g' pen' he h
    simp only [renderAll, Option.some.injEq, Prod.mk.injEq] at h
    obtain ⟨rfl, rfl⟩ := h
    simp at he; subst he
    refine ⟨?_, [], [], List.Pairwise.nil, ?_, List.Forall₂.nil, by simp⟩
    · intro i p a hi ha
      simp [picAt, argsOf_expr, List.getElem?_eq_none hi] at ha
    · intro p
      refine ⟨by simp, ?_⟩
      rintro ⟨i, q, rfl, hi, a, ha, _⟩
      simp [picAt, argsOf_expr, List.getElem?_eq_none hi] at ha
  | cons e rest ih =>
    intro pre g pen g' pen' he h
    have hget : es[pre.length]? = some e := by rw [he]; simp
    have htake : es.take pre.length = pre := by rw [he]; simp
    unfold renderAll at h
    split at h
    · cases h
    · rename_i g1 pen1 h1
      obtain ⟨hp1, hok1, places1, ser1, hs1, hm1, hf1, rfl⟩ := hes e (by rw [he]; simp) _ _ _ _ h1
      rw [hp1, ← penOver_append] at h
      have hfl : (pre ++ [e]).flatMap directiveParts = pre.flatMap directiveParts ++ directiveParts e := by simp
      rw [← hfl] at h
      obtain ⟨hok2, places2, ser2, hs2, hm2, hf2, rfl⟩ := ih (pre ++ [e]) _ pen _ _ (by rw [he]; simp) h
      refine ⟨?_, places1.map (pre.length :: ·) ++ places2, ser1 ++ ser2, ?_, ?_, ?_, by simp⟩
      · intro i p a hi ha
        rcases Nat.eq_or_lt_of_le hi with rfl | hi
        · rw [picAt_list hget] at ha
          exact hok1 p a ha
        · exact hok2 i p a (by simp; omega) ha
      · rw [List.pairwise_append]
        refine ⟨?_, hs2, ?_⟩
        · rw [List.pairwise_map]
          exact hs1.imp (fun h => List.Lex.cons h)
        · intro p hp q hq
          obtain ⟨p', _, rfl⟩ := List.mem_map.1 hp
          obtain ⟨i, q', rfl, hi, _⟩ := (hm2 q).1 hq
          exact List.Lex.rel (by simp at hi; omega)
      · intro p
        rw [List.mem_append, List.mem_map]
        constructor
        · rintro (⟨q, hq, rfl⟩ | hp)
          · obtain ⟨a, ha, hh⟩ := (hm1 q).1 hq
            exact ⟨_, _, rfl, le_refl _, a, by rw [picAt_list hget]; exact ha, hh⟩
          · obtain ⟨i, q, rfl, hi, hl⟩ := (hm2 p).1 hp
            exact ⟨i, q, rfl, by simp at hi; omega, hl⟩
        · rintro ⟨i, q, rfl, hi, hl⟩
          rcases Nat.eq_or_lt_of_le hi with rfl | hi
          · left
            obtain ⟨a, ha, hh⟩ := hl
            rw [picAt_list hget] at ha
            exact ⟨q, (hm1 q).2 ⟨a, ha, hh⟩, rfl⟩
          · right
            exact (hm2 _).2 ⟨i, q, rfl, by simp; omega, hl⟩
      · refine List.rel_append ?_ hf2
        rw [List.forall₂_map_left_iff]
        refine hf1.imp ?_
        rintro p s ⟨pts, hp, rfl⟩
        refine ⟨pts, by rw [picAt_list hget]; exact hp, ?_⟩
        rw [inForce_list hget, htake, penOver_append]

theorem primSome (C : Conv) (e : Ex) : PrimSome C e := by
  induction e using Ex.ind with
  | hsym s => exact primSome_skip C rfl rfl rfl (fun _ _ => rfl)
  | hstr s => exact primSome_skip C rfl rfl rfl (fun _ _ => rfl)
  | hint s => exact primSome_skip C rfl rfl rfl (fun _ _ => rfl)
  | hrat s => exact primSome_skip C rfl rfl rfl (fun _ _ => rfl)
  | hflt s => exact primSome_skip C rfl rfl rfl (fun _ _ => rfl)
  | hcplx => exact primSome_skip C rfl rfl rfl (fun _ _ => rfl)
  | hexpr ps ih =>
    match ps with
    | [] => exact primSome_skip C rfl rfl rfl (fun _ _ => by simp [renderPrimitive])
    | .str _ :: _ => exact primSome_skip C rfl rfl rfl (fun _ _ => by simp [renderPrimitive])
    | .int _ :: _ => exact primSome_skip C rfl rfl rfl (fun _ _ => by simp [renderPrimitive])
    | .rat _ _ :: _ => exact primSome_skip C rfl rfl rfl (fun _ _ => by simp [renderPrimitive])
    | .flt _ :: _ => exact primSome_skip C rfl rfl rfl (fun _ _ => by simp [renderPrimitive])
    | .cplx _ _ :: _ => exact primSome_skip C rfl rfl rfl (fun _ _ => by simp [renderPrimitive])
    | .expr _ :: _ => exact primSome_skip C rfl rfl rfl (fun _ _ => by simp [renderPrimitive])
    | .sym s :: es =>
      by_cases hl : s = "System`List"
      · subst hl
        have hd : argsOf "System`Directive" (.expr (.sym "System`List" :: es)) = none :=
          argsOf_ne (argsOf_expr _ _) (by decide)
        have hn : argsOf "System`Line" (.expr (.sym "System`List" :: es)) = none :=
          argsOf_ne (argsOf_expr _ _) (by decide)
        intro g pen g' pen' h
        unfold renderPrimitive at h
        simp only [↓reduceIte] at h
        split at h
        · cases h
        · rename_i g1 pen1 h1
          simp only [Option.some.injEq, Prod.mk.injEq] at h
          obtain ⟨rfl, rfl⟩ := h
          obtain ⟨hok, places, ser, hs, hm, hf, hg⟩ := all_some C es (fun e he => ih e (by simp [he])) es [] g pen _ _ rfl
            (by simpa [penOver_nil] using h1)
          refine ⟨by rw [directiveParts_none hd, penOver_nil], ?_, places, ser, hs, ?_, hf, hg⟩
          · intro p a ha
            cases p with
            | nil =>
              simp only [picAt, Option.some.injEq] at ha
              subst ha
              refine ⟨lineOk_none hn, ?_⟩
              rw [directiveParts_none hd]; simp
            | cons i p => exact hok i p a (by simp) ha
          · intro p
            rw [hm]
            constructor
            · rintro ⟨_, _, _, _, hl⟩; exact hl
            · intro hl
              cases p with
              | nil =>
                obtain ⟨a, ha, hh⟩ := hl
                simp only [picAt, Option.some.injEq] at ha
                subst ha
                obtain ⟨as, has⟩ := hasHead_iff.1 hh; rw [hn] at has; cases has
              | cons i p => exact ⟨i, p, rfl, by simp, hl⟩
      · have hl' : argsOf "System`List" (.expr (.sym s :: es)) = none := by simp [argsOf, hl]
        by_cases hd : s = "System`Directive"
        · subst hd
          have hn : argsOf "System`Line" (.expr (.sym "System`Directive" :: es)) = none :=
            argsOf_ne (argsOf_expr _ _) (by decide)
          have hdp : directiveParts (.expr (.sym "System`Directive" :: es)) = es := by
            simp [directiveParts, argsOf_expr]
          intro g pen g' pen' h
          unfold renderPrimitive at h
          simp only [hl, ↓reduceIte] at h
          split at h
          · cases h
          · rename_i pen1 h1
            simp only [Option.some.injEq, Prod.mk.injEq] at h
            obtain ⟨rfl, rfl⟩ := h
            obtain ⟨hok, rfl⟩ := setDirectives_some h1
            refine ⟨by rw [hdp], ?_, [], [], List.Pairwise.nil, ?_, List.Forall₂.nil, by simp⟩
            · intro p a ha
              obtain ⟨rfl, rfl⟩ := picAt_leaf hl' ha
              exact ⟨lineOk_none hn, by rw [hdp]; exact hok⟩
            · intro p
              refine ⟨by simp, ?_⟩
              rintro ⟨a, ha, hh⟩
              obtain ⟨rfl, rfl⟩ := picAt_leaf hl' ha
              obtain ⟨as, has⟩ := hasHead_iff.1 hh; rw [hn] at has; cases has
        · have hd' : argsOf "System`Directive" (.expr (.sym s :: es)) = none := by simp [argsOf, hd]
          by_cases hn : s = "System`Line"
          · subst hn
            intro g pen g' pen' h
            unfold renderPrimitive at h
            simp only [hl, hd, ↓reduceIte] at h
            split at h
            · cases h
            · rename_i g1 h1
              simp only [Option.some.injEq, Prod.mk.injEq] at h
              obtain ⟨rfl, rfl⟩ := h
              obtain ⟨pts, hpts, rfl⟩ := renderLine_some h1
              have hpts' : Ex.expr (.sym "System`Line" :: es) = lineThrough pts := hpts
              refine ⟨by rw [directiveParts_none hd', penOver_nil], ?_, [[]], _, List.pairwise_singleton _ _, ?_,
                List.Forall₂.cons ⟨pts, by rw [picAt, hpts'], rfl⟩ List.Forall₂.nil, ?_⟩
              · intro p a ha
                obtain ⟨rfl, rfl⟩ := picAt_leaf hl' ha
                exact ⟨fun _ => ⟨pts, hpts'⟩, by rw [directiveParts_none hd']; simp⟩
              · intro p
                constructor
                · intro hp
                  simp at hp; subst hp
                  exact ⟨_, by rw [picAt], by simp [hasHead]⟩
                · rintro ⟨a, ha, hh⟩
                  obtain ⟨rfl, rfl⟩ := picAt_leaf hl' ha
                  simp
              · rw [inForce_nil, penOver_nil]
          · have hn' : argsOf "System`Line" (.expr (.sym s :: es)) = none := by simp [argsOf, hn]
            exact primSome_skip C hl' hd' hn' (fun g pen => by simp [renderPrimitive, hl, hd, hn])

/-- Well-formed pictures are rendered. -/
theorem prim_isSome (C : Conv) (e : Ex) :
    (∀ p a, picAt e p = some a → LineOk a ∧ ∀ d ∈ directiveParts a, DirectiveOk d) →
    ∀ g pen, ∃ q, renderPrimitive C e g pen = some q := by
  induction e using Ex.ind with
  | hsym s => intro _ g pen; exact ⟨_, rfl⟩
  | hstr s => intro _ g pen; exact ⟨_, rfl⟩
  | hint s => intro _ g pen; exact ⟨_, rfl⟩
  | hrat s => intro _ g pen; exact ⟨_, rfl⟩
  | hflt s => intro _ g pen; exact ⟨_, rfl⟩
  | hcplx => intro _ g pen; exact ⟨_, rfl⟩
  | hexpr ps ih =>
    intro hok g pen
    unfold renderPrimitive
    split
    · rename_i g pen _ _ _ s es heq
      simp only [Ex.expr.injEq] at heq
      subst heq
      split_ifs with hl hd hn
      · subst hl
        have hall : ∀ rest : List Ex, (∀ e ∈ rest, e ∈ es) → ∀ g pen, ∃ q, renderAll C rest g pen = some q := by
          intro rest
          induction rest with
          | nil => intro _ g pen; exact ⟨_, rfl⟩
          | cons e rest ih2 =>
            intro hsub g pen
            have he : e ∈ es := hsub e (by simp)
            obtain ⟨i, hi⟩ := List.getElem?_of_mem he
            obtain ⟨⟨g1, pen1⟩, h1⟩ := ih e (by simp [he])
              (fun p a ha => hok (i :: p) a (by rw [picAt_list hi]; exact ha)) g pen
            obtain ⟨q, h2⟩ := ih2 (fun x hx => hsub x (by simp [hx])) g1 pen1
            exact ⟨q, by simp [renderAll, h1, h2]⟩
        obtain ⟨⟨g1, pen1⟩, h1⟩ := hall es (fun _ h => h) g pen
        rw [h1]; exact ⟨_, rfl⟩
      · subst hd
        have := (hok [] _ rfl).2
        rw [show directiveParts (.expr (.sym "System`Directive" :: es)) = es by simp [directiveParts, argsOf_expr]] at this
        obtain ⟨pen', hp⟩ := setDirectives_isSome (C := C) (pen := pen) this
        rw [hp]; exact ⟨_, rfl⟩
      · subst hn
        obtain ⟨pts, hp⟩ := (hok [] _ rfl).1 (by simp [hasHead])
        obtain ⟨g', hg⟩ := renderLine_mk (C := C) (g := g) (pen := pen) (args := es) hp
        rw [hg]; exact ⟨_, rfl⟩
      · exact ⟨_, rfl⟩
    · exact ⟨_, rfl⟩

end Graphics
end Expreduce
