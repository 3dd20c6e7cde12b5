import Verif.Proofs.SolveRules
import Verif.Proofs.SolveAlg
import Verif.Spec.Solve

/-! The values of the solutions. -/

namespace Expreduce
open Ex Shipped

section
variable {V : Interp}

theorem den_eq {e : Ex} {v w : ℂ} (h : V.Denotes e v) (hv : v = w) : V.Denotes e w := hv ▸ h

theorem den_add2 {a b : Ex} {x y : ℂ} (ha : V.Denotes a x) (hb : V.Denotes b y) : V.Denotes (add [a, b]) (x + y) :=
  den_eq (den_add (.cons ha (.cons hb .nil))) (by simp)
theorem den_add3 {a b c : Ex} {x y z : ℂ} (ha : V.Denotes a x) (hb : V.Denotes b y) (hc : V.Denotes c z) : V.Denotes (add [a, b, c]) (x + y + z) :=
  den_eq (den_add (.cons ha (.cons hb (.cons hc .nil)))) (by simp; ring)
theorem den_add4 {a b c d : Ex} {x y z w : ℂ} (ha : V.Denotes a x) (hb : V.Denotes b y) (hc : V.Denotes c z) (hd : V.Denotes d w) :
    V.Denotes (add [a, b, c, d]) (x + y + z + w) :=
  den_eq (den_add (.cons ha (.cons hb (.cons hc (.cons hd .nil))))) (by simp; ring)
theorem den_add5 {a b c d e : Ex} {x y z w u : ℂ} (ha : V.Denotes a x) (hb : V.Denotes b y) (hc : V.Denotes c z) (hd : V.Denotes d w) (he : V.Denotes e u) :
    V.Denotes (add [a, b, c, d, e]) (x + y + z + w + u) :=
  den_eq (den_add (.cons ha (.cons hb (.cons hc (.cons hd (.cons he .nil)))))) (by simp; ring)
theorem den_add6 {a b c d e f : Ex} {x y z w u t : ℂ} (ha : V.Denotes a x) (hb : V.Denotes b y) (hc : V.Denotes c z) (hd : V.Denotes d w) (he : V.Denotes e u)
    (hf : V.Denotes f t) : V.Denotes (add [a, b, c, d, e, f]) (x + y + z + w + u + t) :=
  den_eq (den_add (.cons ha (.cons hb (.cons hc (.cons hd (.cons he (.cons hf .nil))))))) (by simp; ring)
theorem den_mul2 {a b : Ex} {x y : ℂ} (ha : V.Denotes a x) (hb : V.Denotes b y) : V.Denotes (mul [a, b]) (x * y) :=
  den_eq (den_mul (.cons ha (.cons hb .nil))) (by simp)
theorem den_mul3 {a b c : Ex} {x y z : ℂ} (ha : V.Denotes a x) (hb : V.Denotes b y) (hc : V.Denotes c z) : V.Denotes (mul [a, b, c]) (x * y * z) :=
  den_eq (den_mul (.cons ha (.cons hb (.cons hc .nil)))) (by simp; ring)
theorem den_mul4 {a b c d : Ex} {x y z w : ℂ} (ha : V.Denotes a x) (hb : V.Denotes b y) (hc : V.Denotes c z) (hd : V.Denotes d w) :
    V.Denotes (mul [a, b, c, d]) (x * y * z * w) :=
  den_eq (den_mul (.cons ha (.cons hb (.cons hc (.cons hd .nil))))) (by simp; ring)

theorem den_1 : V.Denotes (.int 1) 1 := by simpa using den_int (V := V) 1
theorem den_0 : V.Denotes (.int 0) 0 := by simpa using den_int (V := V) 0
theorem den_nat (n : Nat) [n.AtLeastTwo] : V.Denotes (.int (OfNat.ofNat n)) (OfNat.ofNat n) := by simpa using den_int (V := V) (OfNat.ofNat n)
theorem den_negNat (n : Nat) [n.AtLeastTwo] : V.Denotes (.int (-OfNat.ofNat n)) (-OfNat.ofNat n) := by simpa using den_int (V := V) (-OfNat.ofNat n)

theorem quadratic_values {a b c : ℂ} (ha : a ≠ 0) : ∃ ss, (∀ (V : Interp) (_ : V.Standard) (A B C : Ex) (_ : V.Denotes A a) (_ : V.Denotes B b) (_ : V.Denotes C c),
      List.Forall₂ V.Denotes (quadraticSols A B C) ss) ∧ Factors (fun z => a * z ^ 2 + b * z + c) a ss := by
  constructor
  constructor
  intro V hS A B C hA hB hC
  have hd := den_root2 hS (den_sub (den_sq hB) (den_mul3 (den_nat 4) hA hC))
  have h2 := den_mul2 (den_nat 2) hA
  have h20 : (2 : ℂ) * a ≠ 0 := mul_ne_zero two_ne_zero ha
  exact .cons (den_dv (den_sub (den_neg hB) hd) h2 h20) (.cons (den_dv (den_add2 (den_neg hB) hd) h2 h20) .nil)
  intro z
  simp only [List.map_cons, List.map_nil, List.prod_cons, List.prod_nil, mul_one]
  rw [quadratic_factor ha (root2_sq _) z, mul_assoc]

theorem root3_ne {x : ℂ} (h : x ≠ 0) : x ^ ((1 : ℂ) / 3) ≠ 0 := by
  intro h0
  have := root3_cube x
  rw [h0] at this
  exact h (by rw [← this]; norm_num)

theorem den_cubicP {D C B : Ex} {d c b : ℂ} (hD : V.Denotes D d) (hC : V.Denotes C c) (hB : V.Denotes B b) : V.Denotes (cubicP D C B) (-c ^ 2 + 3 * b * d) :=
  den_add2 (den_neg (den_sq hC)) (den_mul3 (den_nat 3) hB hD)

theorem den_cubicR (hS : V.Standard) {D C B A : Ex} {d c b a : ℂ} (hD : V.Denotes D d) (hC : V.Denotes C c) (hB : V.Denotes B b) (hA : V.Denotes A a) :
    V.Denotes (cubicR D C B A) (cubicRad d c b a) := by
  have h1 := den_mul2 (den_negNat 2) (den_cube hC)
  have h2 := den_mul4 (den_nat 9) hB hC hD
  have h3 := den_neg (den_mul3 (den_nat 27) hA (den_sq hD))
  have hQ : V.Denotes (cubicQ D C B A) (-2 * c ^ 3 + 9 * b * c * d - 27 * a * d ^ 2) := den_eq (den_add3 h1 h2 h3) (by ring)
  have h4 := den_root2 hS (den_add2 (den_mul2 (den_nat 4) (den_cube (den_cubicP hD hC hB))) (den_sq hQ))
  exact den_eq (den_add4 h1 h2 h3 h4) (by rw [cubicRad]; ring)

theorem two_thirds : (2 : ℂ) ^ ((2 : ℂ) / 3) = ((2 : ℂ) ^ ((1 : ℂ) / 3)) ^ 2 := by
  rw [← Complex.cpow_nat_mul]
  congr 1
  norm_num

theorem two_re : 0 < ((2 : ℂ) / 3).re := by norm_num

theorem cubic_values {d c b a : ℂ} (hd : d ≠ 0) (hr : cubicRad d c b a ≠ 0) :
    ∃ ss, (∀ (V : Interp) (_ : V.Standard) (D C B A : Ex) (_ : V.Denotes D d) (_ : V.Denotes C c) (_ : V.Denotes B b) (_ : V.Denotes A a),
      List.Forall₂ V.Denotes (cubicSols D C B A) ss) ∧ Factors (fun z => d * z ^ 3 + c * z ^ 2 + b * z + a) d ss := by
  have hr0 := root3_ne hr
  have hk0 : (2 : ℂ) ^ ((1 : ℂ) / 3) ≠ 0 := root3_ne two_ne_zero
  have hw2 : (Complex.I * (3 : ℂ) ^ ((1 : ℂ) / 2)) ^ 2 = -3 := by rw [mul_pow, root2_sq, Complex.I_sq]; ring
  constructor
  constructor
  intro V hS D C B A hD hC hB hA
  have hR := den_root3 (den_cubicR hS hD hC hB hA)
  have hr0 := root3_ne hr
  have hk := den_root3 (den_nat (V := V) 2)
  have hk0 : (2 : ℂ) ^ ((1 : ℂ) / 3) ≠ 0 := root3_ne two_ne_zero
  have hk2 : V.Denotes (pow (.int 2) (dv (.int 2) (.int 3))) (((2 : ℂ) ^ ((1 : ℂ) / 3)) ^ 2) :=
    two_thirds ▸ den_pow (den_nat 2) (den_dv (den_nat 2) (den_nat 3) three_ne_zero) (powValue_root two_re)
  have hP := den_cubicP hD hC hB
  have hw := den_mul2 (den_i hS) (den_root2 hS (den_nat 3))
  have hw2 : (Complex.I * (3 : ℂ) ^ ((1 : ℂ) / 2)) ^ 2 = -3 := by rw [mul_pow, root2_sq, Complex.I_sq]; ring
  have hc := den_neg (den_dv hC (den_mul2 (den_nat 3) hD) (mul_ne_zero three_ne_zero hd))
  have s1 := den_add3 hc (den_neg (den_dv (den_mul2 hk hP) (den_mul3 (den_nat 3) hD hR) (mul_ne_zero (mul_ne_zero three_ne_zero hd) hr0)))
    (den_dv hR (den_mul3 (den_nat 3) hk hD) (mul_ne_zero (mul_ne_zero three_ne_zero hk0) hd))
  have hden := den_mul4 (den_nat 3) hk2 hD hR
  have hden0 := mul_ne_zero (mul_ne_zero (mul_ne_zero three_ne_zero (pow_ne_zero 2 hk0)) hd) hr0
  have h6 := den_dv den_1 (den_mul3 (den_nat 6) hk hD) (mul_ne_zero (mul_ne_zero (OfNat.ofNat_ne_zero 6) hk0) hd)
  have s2 := den_add3 hc (den_dv (den_mul2 (den_add2 den_1 hw) hP) hden hden0) (den_neg (den_mul3 h6 (den_sub den_1 hw) hR))
  have s3 := den_add3 hc (den_dv (den_mul2 (den_sub den_1 hw) hP) hden hden0) (den_neg (den_mul3 h6 (den_add2 den_1 hw) hR))
  exact .cons s1 (.cons s2 (.cons s3 .nil))
  intro z
  simp only [List.map_cons, List.map_nil, List.prod_cons, List.prod_nil, mul_one]
  rw [cubic_factor hd hr0 (root3_cube 2) hw2 (root2_sq _) (root3_cube _) z]
  simp only [sub_eq_add_neg, mul_assoc]

theorem den_quarticP {E D C B A : Ex} {e d c b a : ℂ} (hE : V.Denotes E e) (hD : V.Denotes D d) (hC : V.Denotes C c) (hB : V.Denotes B b) (hA : V.Denotes A a) :
    V.Denotes (quarticP E D C B A) (c ^ 2 - 3 * b * d + 12 * a * e) :=
  den_eq (den_add3 (den_sq hC) (den_neg (den_mul3 (den_nat 3) hB hD)) (den_mul3 (den_nat 12) hA hE)) (by ring)

theorem den_quarticR (hS : V.Standard) {E D C B A : Ex} {e d c b a : ℂ} (hE : V.Denotes E e) (hD : V.Denotes D d) (hC : V.Denotes C c) (hB : V.Denotes B b)
    (hA : V.Denotes A a) : V.Denotes (quarticR E D C B A) (quarticRad e d c b a) := by
  have h1 := den_mul2 (den_nat 2) (den_cube hC)
  have h2 := den_neg (den_mul4 (den_nat 9) hB hC hD)
  have h3 := den_mul3 (den_nat 27) hA (den_sq hD)
  have h4 := den_mul3 (den_nat 27) (den_sq hB) hE
  have h5 := den_neg (den_mul4 (den_nat 72) hA hC hE)
  have hQ : V.Denotes (quarticQ E D C B A) (2 * c ^ 3 - 9 * b * c * d + 27 * a * d ^ 2 + 27 * b ^ 2 * e - 72 * a * c * e) :=
    den_eq (den_add5 h1 h2 h3 h4 h5) (by ring)
  have h6 := den_root2 hS (den_add2 (den_mul2 (den_negNat 4) (den_cube (den_quarticP hE hD hC hB hA))) (den_sq hQ))
  exact den_eq (den_add6 h1 h2 h3 h4 h5 h6) (by rw [quarticRad]; ring)

theorem root2_ne {x : ℂ} (h : x ≠ 0) : x ^ ((1 : ℂ) / 2) ≠ 0 := by
  intro h0
  have := root2_sq x
  rw [h0] at this
  exact h (by rw [← this]; norm_num)

theorem den_halfRoot (hS : V.Standard) {A : Ex} {a : ℂ} (hA : V.Denotes A a) : V.Denotes (halfRoot A) (1 / 2 * a ^ ((1 : ℂ) / 2)) :=
  den_mul2 (den_dv den_1 (den_nat 2) two_ne_zero) (den_root2 hS hA)

theorem den_quarticU (hS : V.Standard) {E D C B A : Ex} {e d c b a : ℂ} (hE : V.Denotes E e) (hD : V.Denotes D d) (hC : V.Denotes C c) (hB : V.Denotes B b)
    (hA : V.Denotes A a) (he : e ≠ 0) (hr : quarticRad e d c b a ≠ 0) : V.Denotes (quarticU E D C B A) (quarticRoot e d c b a) := by
  have hR := den_root3 (den_quarticR hS hE hD hC hB hA)
  have hr0 := root3_ne hr
  have hk := den_root3 (den_nat (V := V) 2)
  have hk0 : (2 : ℂ) ^ ((1 : ℂ) / 3) ≠ 0 := root3_ne two_ne_zero
  have h3e := mul_ne_zero (three_ne_zero (α := ℂ)) he
  have hSS := den_dv (den_mul2 hk (den_quarticP hE hD hC hB hA)) (den_mul3 (den_nat 3) hE hR) (mul_ne_zero h3e hr0)
  have hTT := den_mul2 (den_dv den_1 (den_mul3 (den_nat 3) hk hE) (mul_ne_zero (mul_ne_zero three_ne_zero hk0) he)) hR
  exact den_eq (den_add4 (den_dv (den_sq hD) (den_mul2 (den_nat 4) (den_sq hE)) (mul_ne_zero (OfNat.ofNat_ne_zero 4) (pow_ne_zero 2 he)))
    (den_neg (den_dv (den_mul2 (den_nat 2) hC) (den_mul2 (den_nat 3) hE) h3e)) hSS hTT) (by rw [quarticRoot]; ring)

theorem quartic_values {e d c b a : ℂ} (he : e ≠ 0) (hr : quarticRad e d c b a ≠ 0) (hu : quarticRoot e d c b a ≠ 0) :
    ∃ ss, (∀ (V : Interp) (_ : V.Standard) (E D C B A : Ex) (_ : V.Denotes E e) (_ : V.Denotes D d) (_ : V.Denotes C c) (_ : V.Denotes B b) (_ : V.Denotes A a),
      List.Forall₂ V.Denotes (quarticSols E D C B A) ss) ∧ Factors (fun z => e * z ^ 4 + d * z ^ 3 + c * z ^ 2 + b * z + a) e ss := by
  have hr0 := root3_ne hr
  have hk0 : (2 : ℂ) ^ ((1 : ℂ) / 3) ≠ 0 := root3_ne two_ne_zero
  have h3e := mul_ne_zero (three_ne_zero (α := ℂ)) he
  have h4e : (4 : ℂ) * e ≠ 0 := mul_ne_zero (by norm_num) he
  have hu0 := root2_ne hu
  constructor
  constructor
  intro V hS E D C B A hE hD hC hB hA
  have hR := den_root3 (den_quarticR hS hE hD hC hB hA)
  have hr0 := root3_ne hr
  have hk := den_root3 (den_nat (V := V) 2)
  have hk0 : (2 : ℂ) ^ ((1 : ℂ) / 3) ≠ 0 := root3_ne two_ne_zero
  have hP := den_quarticP hE hD hC hB hA
  have h3e := mul_ne_zero (three_ne_zero (α := ℂ)) he
  have h4e : (4 : ℂ) * e ≠ 0 := mul_ne_zero (by norm_num) he
  have hSS := den_dv (den_mul2 hk hP) (den_mul3 (den_nat 3) hE hR) (mul_ne_zero h3e hr0)
  have hTT := den_mul2 (den_dv den_1 (den_mul3 (den_nat 3) hk hE) (mul_ne_zero (mul_ne_zero three_ne_zero hk0) he)) hR
  have hU : V.Denotes (quarticU E D C B A) (quarticRoot e d c b a) :=
    den_eq (den_add4 (den_dv (den_sq hD) (den_mul2 (den_nat 4) (den_sq hE)) (mul_ne_zero (OfNat.ofNat_ne_zero 4) (pow_ne_zero 2 he)))
      (den_neg (den_dv (den_mul2 (den_nat 2) hC) (den_mul2 (den_nat 3) hE) h3e)) hSS hTT) (by rw [quarticRoot]; ring)
  have hu0 := root2_ne hu
  have hG := den_dv (den_add3 (den_neg (den_dv (den_cube hD) (den_cube hE) (pow_ne_zero 3 he)))
    (den_dv (den_mul3 (den_nat 4) hC hD) (den_sq hE) (pow_ne_zero 2 he)) (den_neg (den_dv (den_mul2 (den_nat 8) hB) hE he)))
    (den_mul2 (den_nat 4) (den_root2 hS hU)) (mul_ne_zero (OfNat.ofNat_ne_zero 4) hu0)
  have a1 := den_dv (den_sq hD) (den_mul2 (den_nat 2) (den_sq hE)) (mul_ne_zero two_ne_zero (pow_ne_zero 2 he))
  have a2 := den_neg (den_dv (den_mul2 (den_nat 4) hC) (den_mul2 (den_nat 3) hE) h3e)
  have hW1 := den_halfRoot hS (den_add5 a1 a2 (den_neg hSS) (den_neg hTT) (den_neg hG))
  have hW2 := den_halfRoot hS (den_add5 a1 a2 (den_neg hSS) (den_neg hTT) hG)
  have hdd := den_neg (den_dv hD (den_mul2 (den_nat 4) hE) h4e)
  have hHU := den_halfRoot hS hU
  exact .cons (den_add3 hdd (den_neg hHU) (den_neg hW1)) (.cons (den_add3 hdd (den_neg hHU) hW1)
    (.cons (den_add3 hdd hHU (den_neg hW2)) (.cons (den_add3 hdd hHU hW2) .nil)))
  intro z
  simp only [List.map_cons, List.map_nil, List.prod_cons, List.prod_nil, mul_one]
  rw [quartic_factor he hr0 hu0 (root3_cube 2) (root2_sq _) (root3_cube _) rfl (root2_sq _) rfl
    (w1 := (d ^ 2 / (2 * e ^ 2) + -(4 * c / (3 * e)) + -((2 : ℂ) ^ ((1 : ℂ) / 3) * (c ^ 2 - 3 * b * d + 12 * a * e) / (3 * e * quarticRad e d c b a ^ ((1 : ℂ) / 3))) +
      -(1 / (3 * (2 : ℂ) ^ ((1 : ℂ) / 3) * e) * quarticRad e d c b a ^ ((1 : ℂ) / 3)) +
      -((-(d ^ 3 / e ^ 3) + 4 * c * d / e ^ 2 + -(8 * b / e)) / (4 * quarticRoot e d c b a ^ ((1 : ℂ) / 2)))) ^ ((1 : ℂ) / 2))
    (w2 := (d ^ 2 / (2 * e ^ 2) + -(4 * c / (3 * e)) + -((2 : ℂ) ^ ((1 : ℂ) / 3) * (c ^ 2 - 3 * b * d + 12 * a * e) / (3 * e * quarticRad e d c b a ^ ((1 : ℂ) / 3))) +
      -(1 / (3 * (2 : ℂ) ^ ((1 : ℂ) / 3) * e) * quarticRad e d c b a ^ ((1 : ℂ) / 3)) +
      (-(d ^ 3 / e ^ 3) + 4 * c * d / e ^ 2 + -(8 * b / e)) / (4 * quarticRoot e d c b a ^ ((1 : ℂ) / 2))) ^ ((1 : ℂ) / 2))
    (by rw [root2_sq]; simp only [quarticRoot]; ring) (by rw [root2_sq]; simp only [quarticRoot]; ring) z]
  simp only [sub_eq_add_neg, mul_assoc, quarticRoot]

end
end Expreduce
