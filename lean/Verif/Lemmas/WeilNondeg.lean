import Verif.Lemmas.WeilOrder
import Mathlib.Algebra.Polynomial.Roots
import Mathlib.Algebra.BigOperators.Intervals
import Mathlib.RingTheory.Ideal.Maps
/-!
The Weil pairing of a basis of odd order is not one.  If it were, the function with the zeros `Q + iP`
and the poles `iP` would be invariant under the translation by `P`; its values at the points `T + iP`
with `T` of order two then show that it is constant.
-/
namespace Festa
open Polynomial WeierstrassCurve WeierstrassCurve.Affine WeierstrassCurve.Affine.CoordinateRing
open scoped Polynomial.Bivariate
variable {K : Type*} [Field K] [DecidableEq K] {A : K}

/-! ### Ideals and degrees -/

omit [DecidableEq K] in
theorem monicC_ne {z : (mont A).CoordinateRing} (h : MonicC z) : z ≠ 0 := by
  rintro rfl
  obtain ⟨p, q, h1, h2⟩ := h
  obtain ⟨rfl, rfl⟩ := smul_basis_eq_zero h1.symm
  have : ringInf (0 : K[X]) 0 = 0 := by simp [ringInf]
  rw [this] at h2
  exact not_monic_zero h2

omit [DecidableEq K] in
theorem denC_ideal (S : MPoint A) : Ideal.span {denC S} = ptIdeal (-S) * ptIdeal S := (ptIdeal_neg S).symm

theorem numC_ideal' (V W : MPoint A) :
    Ideal.span {numC V W} = ptIdeal V * ptIdeal W * ptIdeal (-(V + W)) := by
  have h := congrArg (fun I => ptIdeal (-(V + W)) * I) (numC_ideal V W)
  rw [mul_left_comm, ptIdeal_neg, mul_left_comm, mul_comm (Ideal.span {numC V W}),
    Ideal.span_singleton_mul_right_inj (denC_ne _)] at h
  rw [h, mul_comm]

/-- The order of the pole at infinity. -/
noncomputable def poleDeg (z : (mont A).CoordinateRing) : Nat := (Algebra.norm K[X] z).natDegree

omit [DecidableEq K] in
theorem norm_ne {z : (mont A).CoordinateRing} (h : z ≠ 0) : Algebra.norm K[X] z ≠ 0 := by
  obtain ⟨p, q, rfl⟩ := exists_smul_basis_eq z
  intro h0
  have hd := degree_norm_smul_basis (W' := mont A) p q
  rw [h0, degree_zero] at hd
  have h1 : 2 • p.degree ≤ ⊥ := by rw [hd]; exact le_max_left _ _
  have h2 : 2 • q.degree + 3 ≤ ⊥ := by rw [hd]; exact le_max_right _ _
  have hp : p = 0 := by
    by_contra hp
    rw [degree_eq_natDegree hp, two_nsmul] at h1
    exact WithBot.natCast_ne_bot (p.natDegree + p.natDegree) (le_bot_iff.mp (by exact_mod_cast h1))
  have hq : q = 0 := by
    by_contra hq
    rw [degree_eq_natDegree hq, two_nsmul] at h2
    exact WithBot.natCast_ne_bot (q.natDegree + q.natDegree + 3) (le_bot_iff.mp (by exact_mod_cast h2))
  apply h
  rw [hp, hq]; simp

omit [DecidableEq K] in
theorem poleDeg_mul {z w : (mont A).CoordinateRing} (hz : z ≠ 0) (hw : w ≠ 0) :
    poleDeg (z * w) = poleDeg z + poleDeg w := by
  unfold poleDeg
  rw [map_mul, natDegree_mul (norm_ne hz) (norm_ne hw)]

omit [DecidableEq K] in
theorem poleDeg_one : poleDeg (1 : (mont A).CoordinateRing) = 0 := by
  unfold poleDeg; rw [map_one, natDegree_one]

omit [DecidableEq K] in
theorem poleDeg_prod {n : Nat} {f : Nat → (mont A).CoordinateRing} (hf : ∀ i, i < n → f i ≠ 0) :
    poleDeg (∏ i ∈ Finset.range n, f i) = ∑ i ∈ Finset.range n, poleDeg (f i) ∧
      ∏ i ∈ Finset.range n, f i ≠ 0 := by
  induction n with
  | zero => exact ⟨by simp [poleDeg_one], by simp⟩
  | succ n ih =>
    obtain ⟨i1, i2⟩ := ih fun i hi => hf i (by omega)
    rw [Finset.prod_range_succ, Finset.sum_range_succ, poleDeg_mul i2 (hf n (by omega)), i1]
    exact ⟨rfl, mul_ne_zero i2 (hf n (by omega))⟩

omit [DecidableEq K] in
theorem poleDeg_basis (p q : K[X]) {n : Nat}
    (h : max (2 • p.degree) (2 • q.degree + 3) = (n : WithBot Nat)) :
    poleDeg (p • (1 : (mont A).CoordinateRing) + q • CoordinateRing.mk (mont A) Y) = n := by
  unfold poleDeg
  apply natDegree_eq_of_degree_eq_some
  rw [degree_norm_smul_basis, h]

omit [DecidableEq K] in
theorem poleDeg_X (x : K) : poleDeg (XClass (mont A) x) = 2 := by
  have e : XClass (mont A) x = (X - C x : K[X]) • (1 : (mont A).CoordinateRing) + (0 : K[X]) • CoordinateRing.mk (mont A) Y := by
    rw [zero_smul, add_zero, CoordinateRing.smul, mul_one]; rfl
  rw [e]
  refine poleDeg_basis _ _ ?_
  rw [degree_X_sub_C, degree_zero]
  rfl

omit [DecidableEq K] in
theorem poleDeg_Y (x y l : K) : poleDeg (YClass (mont A) (linePolynomial x y l)) = 3 := by
  have e : YClass (mont A) (linePolynomial x y l) =
      (-linePolynomial x y l : K[X]) • (1 : (mont A).CoordinateRing) + (1 : K[X]) • CoordinateRing.mk (mont A) Y := by
    rw [one_smul, CoordinateRing.smul, mul_one, map_neg, map_neg, neg_add_eq_sub, ← map_sub]; rfl
  rw [e]
  refine poleDeg_basis _ _ ?_
  rw [degree_neg, degree_one]
  have : (linePolynomial x y l).degree ≤ 1 := by
    unfold linePolynomial
    compute_degree!
  rw [max_eq_right]
  · rfl
  · calc 2 • (linePolynomial x y l).degree ≤ 2 • (1 : WithBot Nat) := nsmul_le_nsmul_right this 2
      _ ≤ _ := by decide

omit [DecidableEq K] in
theorem poleDeg_den {S : MPoint A} (hS : S ≠ 0) : poleDeg (denC S) = 2 := by
  rcases S with _ | ⟨x, y, h⟩
  · exact absurd rfl hS
  · exact poleDeg_X x

theorem poleDeg_num {V W : MPoint A} (hV : V ≠ 0) (hW : W ≠ 0) (h : V + W ≠ 0) : poleDeg (numC V W) = 3 := by
  rcases V with _ | ⟨x, y, k⟩
  · exact absurd rfl hV
  rcases W with _ | ⟨x', y', k'⟩
  · exact absurd rfl hW
  have hxy : ¬(x = x' ∧ y = (mont A).negY x' y') := fun e => h (Point.add_of_Y_eq e.1 e.2)
  have e2 : numC (Point.some x y k : MPoint A) (.some x' y' k') =
      YClass (mont A) (linePolynomial x y ((mont A).slope x x' y y')) := if_neg hxy
  rw [e2]; exact poleDeg_Y _ _ _

theorem poleDeg_num' {V W : MPoint A} (hV : V ≠ 0) (h : V + W = 0) : poleDeg (numC V W) = 2 := by
  rw [eq_neg_of_add_eq_zero_right h, numC_neg V hV]
  exact poleDeg_den hV

omit [DecidableEq K] in
theorem poleDeg_bound {p q : K[X]} {n : Nat} (h0 : p • (1 : (mont A).CoordinateRing) + q • CoordinateRing.mk (mont A) Y ≠ 0)
    (h : poleDeg (p • (1 : (mont A).CoordinateRing) + q • CoordinateRing.mk (mont A) Y) = n) :
    2 * p.natDegree ≤ n ∧ (q ≠ 0 → 2 * q.natDegree + 3 ≤ n) := by
  unfold poleDeg at h
  have hd := degree_norm_smul_basis (W' := mont A) p q
  rw [degree_eq_natDegree (norm_ne h0), h] at hd
  constructor
  · by_cases hp : p = 0
    · rw [hp]; simp
    have h1 : 2 • p.degree ≤ (n : WithBot Nat) := by rw [hd]; exact le_max_left _ _
    rw [degree_eq_natDegree hp, two_nsmul] at h1
    rw [two_mul]; exact_mod_cast h1
  · intro hq
    have h1 : 2 • q.degree + 3 ≤ (n : WithBot Nat) := by rw [hd]; exact le_max_right _ _
    rw [degree_eq_natDegree hq, two_nsmul] at h1
    rw [two_mul]; exact_mod_cast h1

omit [DecidableEq K] in
theorem evalPt_basis {X : MPoint A} (hX : X ≠ 0) (p q : K[X]) :
    evalPt X (p • (1 : (mont A).CoordinateRing) + q • CoordinateRing.mk (mont A) Y) =
      p.eval (xc X) + q.eval (xc X) * yc X := by
  rcases X with _ | ⟨x, y, h⟩
  · exact absurd rfl hX
  have e : p • (1 : (mont A).CoordinateRing) + q • CoordinateRing.mk (mont A) Y = CoordinateRing.mk (mont A) (C p + C q * Y) := by
    rw [CoordinateRing.smul, CoordinateRing.smul, mul_one, map_add, map_mul]
  rw [e]
  exact (AdjoinRoot.evalEval_mk h.1 _).trans (by simp [xc, yc, evalEval_C])

omit [DecidableEq K] in
theorem evalPt_prod {X : MPoint A} (hX : X ≠ 0) (n : Nat) (f : Nat → (mont A).CoordinateRing) :
    evalPt X (∏ i ∈ Finset.range n, f i) = ∏ i ∈ Finset.range n, evalPt X (f i) := by
  rcases X with _ | ⟨x, y, h⟩
  · exact absurd rfl hX
  · exact map_prod (AdjoinRoot.evalEval h.1) _ _

omit [DecidableEq K] in
theorem evalPt_ptIdeal {X : MPoint A} {z : (mont A).CoordinateRing} (h : z ∈ ptIdeal X) : evalPt X z = 0 := by
  rcases X with _ | ⟨x, y, k⟩
  · rfl
  have : ptIdeal (Point.some x y k : MPoint A) ≤ RingHom.ker (AdjoinRoot.evalEval k.1) := by
    refine Ideal.span_le.mpr ?_
    intro w hw
    rcases hw with rfl | hw
    · exact (evalPt_X k x).trans (sub_self x)
    · rw [Set.mem_singleton_iff] at hw
      rw [hw]
      exact (AdjoinRoot.evalEval_mk k.1 _).trans (by simp)
  exact this h

/-! ### The function with the zeros `Q + iP` -/

theorem gv_comm {V W X : MPoint A} (h1 : evalPt X (denC V) ≠ 0) (h2 : evalPt X (denC W) ≠ 0)
    (h3 : evalPt X (denC (V + W)) ≠ 0) : gv V W X = gv W V X := by
  have := gv_four (a := 0) (b := V) (c := W) (d := 0) (X := X) (by rwa [zero_add]) (by rwa [add_zero])
    (by rwa [zero_add]) (by rwa [add_zero]) (by rwa [zero_add, add_zero])
  rwa [zero_add, add_zero, zero_add, add_zero, gv_zero_left h1, gv_zero_right h2, gv_zero_left h2,
    gv_zero_right h1, one_mul, one_mul, one_mul] at this

theorem mil_prod {P X : MPoint A} (hX : X ∉ AddSubgroup.zmultiples P) (n : Nat) :
    mil P X (n + 1) = ∏ j ∈ Finset.range n, gv ((j + 1) • P) P X := by
  induction n with
  | zero => rw [mil_one, Finset.prod_range_zero]
  | succ n ih => rw [mil_succ hX _ (by omega), ih, Finset.prod_range_succ]

variable {P Q : MPoint A} {d : Nat}

/-- The numerator of the function. -/
noncomputable def numF (P Q : MPoint A) (d : Nat) : (mont A).CoordinateRing :=
  (∏ i ∈ Finset.range d, denC ((i + 1) • P) * (denC (Q + (i + 1) • P) * denC (Q + -((i + 1) • P)))) *
    ∏ j ∈ Finset.range (2 * d), numC ((j + 1) • Q) Q

/-- The denominator of the function. -/
noncomputable def denF (P Q : MPoint A) (d : Nat) : (mont A).CoordinateRing :=
  (∏ i ∈ Finset.range d, numC Q ((i + 1) • P) * numC Q (-((i + 1) • P))) *
    ∏ j ∈ Finset.range (2 * d), denC ((j + 1) • Q + Q)

omit [DecidableEq K] in
theorem span_prod (n : Nat) (f : Nat → (mont A).CoordinateRing) :
    Ideal.span {∏ i ∈ Finset.range n, f i} = ∏ i ∈ Finset.range n, Ideal.span {f i} := by
  induction n with
  | zero => simp
  | succ n ih => rw [Finset.prod_range_succ, Finset.prod_range_succ, ← ih,
      Ideal.span_singleton_mul_span_singleton]

/-- The ideal of the function. -/
noncomputable def idealF (P Q : MPoint A) (d : Nat) : Ideal (mont A).CoordinateRing :=
  ptIdeal Q * ∏ i ∈ Finset.range d, ptIdeal (Q + (i + 1) • P) * ptIdeal (Q + -((i + 1) • P))

theorem ideal_num (hQ : (2 * d + 1) • Q = 0) :
    Ideal.span {numF P Q d} = Ideal.span {denF P Q d} * idealF P Q d := by
  unfold numF denF idealF
  simp only [← Ideal.span_singleton_mul_span_singleton, span_prod, denC_ideal, numC_ideal']
  have e1 : ∀ i, ptIdeal (-((i + 1) • P)) * ptIdeal ((i + 1) • P) *
      (ptIdeal (-(Q + (i + 1) • P)) * ptIdeal (Q + (i + 1) • P) *
        (ptIdeal (-(Q + -((i + 1) • P))) * ptIdeal (Q + -((i + 1) • P)))) * (ptIdeal Q * ptIdeal Q) =
      ptIdeal Q * ptIdeal ((i + 1) • P) * ptIdeal (-(Q + (i + 1) • P)) *
        (ptIdeal Q * ptIdeal (-((i + 1) • P)) * ptIdeal (-(Q + -((i + 1) • P)))) *
        (ptIdeal (Q + (i + 1) • P) * ptIdeal (Q + -((i + 1) • P))) := fun i => by ring
  have e2 := Finset.prod_congr (s₁ := Finset.range d) rfl fun i _ => e1 i
  simp only [Finset.prod_mul_distrib, Finset.prod_const, Finset.card_range] at e2 ⊢
  have e3 : ∏ j ∈ Finset.range (2 * d), ptIdeal ((j + 1) • Q) =
      ptIdeal Q * ∏ j ∈ Finset.range (2 * d), ptIdeal ((j + 1) • Q + Q) := by
    have h := Finset.prod_range_succ (fun j => ptIdeal ((j + 1) • Q)) (2 * d)
    rw [Finset.prod_range_succ', hQ, zero_add, one_nsmul] at h
    have e : ptIdeal (0 : MPoint A) = 1 := Ideal.one_eq_top.symm
    rw [e, mul_one] at h
    rw [← h, mul_comm]
    congr 1
    exact Finset.prod_congr rfl fun j _ => by rw [succ_nsmul]
  rw [e3, two_mul d, pow_add]
  refine Eq.trans ?_ (Eq.trans (congrArg (fun I => I * ((ptIdeal Q *
    ∏ j ∈ Finset.range (d + d), ptIdeal ((j + 1) • Q + Q)) *
    ∏ j ∈ Finset.range (d + d), ptIdeal (-((j + 1) • Q + Q)))) e2) ?_)
  · ring
  · ring

theorem numF_ne : numF P Q d ≠ 0 := by
  have n1 := poleDeg_prod (n := d) (f := fun i => denC ((i + 1) • P) *
    (denC (Q + (i + 1) • P) * denC (Q + -((i + 1) • P)))) fun i _ =>
      mul_ne_zero (denC_ne _) (mul_ne_zero (denC_ne _) (denC_ne _))
  have n2 := poleDeg_prod (n := 2 * d) (f := fun j => numC ((j + 1) • Q) Q) fun j _ =>
      monicC_ne (numC_monic _ _)
  exact mul_ne_zero n1.2 n2.2

theorem denF_ne : denF P Q d ≠ 0 := by
  have m1 := poleDeg_prod (n := d) (f := fun i => numC Q ((i + 1) • P) * numC Q (-((i + 1) • P))) fun i _ =>
      mul_ne_zero (monicC_ne (numC_monic _ _)) (monicC_ne (numC_monic _ _))
  have m2 := poleDeg_prod (n := 2 * d) (f := fun j => denC ((j + 1) • Q + Q)) fun j _ => denC_ne _
  exact mul_ne_zero m1.2 m2.2

theorem gv_swap {X : MPoint A} (hP : P ≠ 0) (hQ : Q ≠ 0) (hX : X ≠ 0) (h1 : X + P ≠ 0) (h1' : X - P ≠ 0)
    (h2 : X - Q ≠ 0) (h2' : X + Q ≠ 0) (h3 : X + P - Q ≠ 0) (h3' : X + P + Q ≠ 0) :
    gv X P Q * gv (X - Q) Q (-P) = xc P - xc Q := by
  obtain ⟨m, e1, -, e3, -, e5⟩ := chord hX hP h1
  obtain ⟨n, -, f2, f3, -, f5⟩ := chord h2 hQ (by rwa [sub_add_cancel])
  rw [sub_add_cancel] at f2 f5
  have x1 : xc Q ≠ xc (X + P) := (xc_ne h1 hQ h3' h3).symm
  have x2 : xc X ≠ xc P := xc_ne hX hP h1 h1'
  have x3 : xc X ≠ xc Q := xc_ne hX hQ h2' h2
  have g1 := e5 Q hQ x1
  have g2 := f5 (-P) (neg_ne_zero.mpr hP) (by rw [xc_neg]; exact x2.symm)
  rw [xc_neg, yc_neg] at g2
  have cX := yc_sq hX
  have cP := yc_sq hP
  have cQ := yc_sq hQ
  have d1 := sub_ne_zero.mpr x1
  have d2 := sub_ne_zero.mpr x2
  have d3 := sub_ne_zero.mpr x3.symm
  have d4 : xc P - xc X ≠ 0 := sub_ne_zero.mpr x2.symm
  have k : n * (xc Q - xc X) = yc Q + yc X := by linear_combination -f2 - f3
  have n1 : (yc Q - (m * (xc Q - xc X) + yc X)) * (xc X - xc P) =
      yc Q * (xc X - xc P) + yc X * (xc P - xc Q) + yc P * (xc Q - xc X) := by
    linear_combination -(xc Q - xc X) * e3
  have n2 : (-yc P - (n * (xc P - xc (X - Q)) + yc (X - Q))) * (xc Q - xc X) =
      -(yc P * (xc Q - xc X)) + yc Q * (xc X - xc P) - yc X * (xc P - xc Q) := by
    linear_combination (xc Q - xc X) * f3 - (xc P - xc Q) * k
  rw [← g1] at n1
  rw [← g2] at n2
  have hm : m ^ 2 * (xc X - xc P) ^ 2 = (yc X - yc P) ^ 2 := by rw [← e3]; ring
  apply mul_left_cancel₀ (mul_ne_zero (mul_ne_zero d1 d4) (mul_ne_zero (pow_ne_zero 2 d2) d3))
  have : ∀ a b : K, (xc Q - xc (X + P)) * (xc P - xc X) * ((xc X - xc P) ^ 2 * (xc Q - xc X)) * (a * b) =
      (xc X - xc P) * ((a * (xc Q - xc (X + P)) * (xc X - xc P)) * (b * (xc P - xc X) * (xc Q - xc X))) := by
    intro a b; ring
  rw [this, n1, n2]
  linear_combination (xc X - xc P) ^ 2 * ((xc P - xc Q) * cX + (xc Q - xc X) * cP + (xc X - xc P) * cQ) +
    (xc P - xc X) * (xc Q - xc X) * (xc P - xc Q) * (hm + (xc X - xc P) ^ 2 * e1)

/-- What is used of the points: `P` and `Q` have odd order `2 d + 1` and are independent. -/
structure OddBasis (P Q : MPoint A) (d : Nat) : Prop where
  pos : 1 ≤ d
  basis : IsBasis (2 * d + 1) P Q

namespace OddBasis
variable (b : OddBasis P Q d)
include b

theorem ne (i j : Int) (h : ¬((2 * d + 1 : Nat) : Int) ∣ i) : i • P + j • Q ≠ 0 :=
  fun e => h ((b.basis i j).mp e).1

theorem ne' (i j : Int) (h : ¬((2 * d + 1 : Nat) : Int) ∣ j) : i • P + j • Q ≠ 0 :=
  fun e => h ((b.basis i j).mp e).2

theorem Pi_ne {i : Nat} (h1 : 1 ≤ i) (h2 : i < 2 * d + 1) : i • P ≠ 0 := by
  have := b.ne i 0 (not_dvd_lt h1 h2)
  simpa using this

theorem Qj_ne {i : Nat} (h1 : 1 ≤ i) (h2 : i < 2 * d + 1) : i • Q ≠ 0 := by
  have := b.ne' 0 i (not_dvd_lt h1 h2)
  simpa using this

theorem Q_ne : Q ≠ 0 := by
  have := b.Qj_ne le_rfl (i := 1) (by have := b.pos; omega)
  rwa [one_nsmul] at this

theorem QP_ne (i : Int) : Q + i • P ≠ 0 := by
  have := b.ne' i 1 (by exact_mod_cast not_dvd_lt (a := 1) le_rfl (by have := b.pos; omega))
  rwa [one_zsmul, add_comm] at this

theorem QPi_ne (i : Nat) : Q + i • P ≠ 0 := by
  have := b.QP_ne i; rwa [natCast_zsmul] at this

theorem QPi_ne' (i : Nat) : Q + -(i • P) ≠ 0 := by
  have := b.QP_ne (-i); rwa [neg_zsmul, natCast_zsmul] at this

theorem deg_num : poleDeg (numF P Q d) = 6 * d + (3 * (2 * d - 1) + 2) := by
  have dn := b.pos
  have n1 := poleDeg_prod (n := d) (f := fun i => denC ((i + 1) • P) *
    (denC (Q + (i + 1) • P) * denC (Q + -((i + 1) • P)))) fun i _ =>
      mul_ne_zero (denC_ne _) (mul_ne_zero (denC_ne _) (denC_ne _))
  have n2 := poleDeg_prod (n := 2 * d) (f := fun j => numC ((j + 1) • Q) Q) fun j _ =>
      monicC_ne (numC_monic _ _)
  unfold numF
  rw [poleDeg_mul n1.2 n2.2, n1.1, n2.1]
  congr 1
  · rw [Finset.sum_congr rfl (g := fun _ => 6), Finset.sum_const, Finset.card_range, smul_eq_mul,
      mul_comm]
    intro i hi
    rw [Finset.mem_range] at hi
    rw [poleDeg_mul (denC_ne _) (mul_ne_zero (denC_ne _) (denC_ne _)),
      poleDeg_mul (denC_ne _) (denC_ne _), poleDeg_den (b.Pi_ne (by omega) (by omega)),
      poleDeg_den (b.QPi_ne _), poleDeg_den (b.QPi_ne' _)]
  · obtain ⟨k, hk⟩ : ∃ k, 2 * d = k + 1 := ⟨2 * d - 1, by omega⟩
    rw [hk, Finset.sum_range_succ, poleDeg_num' (b.Qj_ne (by omega) (by omega)) (by
        rw [← succ_nsmul, ← hk]; exact b.basis.nsmul_right),
      Finset.sum_congr rfl (g := fun _ => 3), Finset.sum_const, Finset.card_range, smul_eq_mul]
    · omega
    intro i hi
    rw [Finset.mem_range] at hi
    rw [poleDeg_num (b.Qj_ne (by omega) (by omega)) b.Q_ne]
    rw [← succ_nsmul]; exact b.Qj_ne (by omega) (by omega)

theorem deg_den : poleDeg (denF P Q d) = 6 * d + 2 * (2 * d - 1) := by
  have dn := b.pos
  have m1 := poleDeg_prod (n := d) (f := fun i => numC Q ((i + 1) • P) * numC Q (-((i + 1) • P))) fun i _ =>
      mul_ne_zero (monicC_ne (numC_monic _ _)) (monicC_ne (numC_monic _ _))
  have m2 := poleDeg_prod (n := 2 * d) (f := fun j => denC ((j + 1) • Q + Q)) fun j _ => denC_ne _
  unfold denF
  rw [poleDeg_mul m1.2 m2.2, m1.1, m2.1]
  congr 1
  · rw [Finset.sum_congr rfl (g := fun _ => 6), Finset.sum_const, Finset.card_range, smul_eq_mul,
      mul_comm]
    intro i hi
    rw [Finset.mem_range] at hi
    have h1 := b.Pi_ne (i := i + 1) (by omega) (by omega)
    rw [poleDeg_mul (monicC_ne (numC_monic _ _)) (monicC_ne (numC_monic _ _)),
      poleDeg_num b.Q_ne h1 (b.QPi_ne _), poleDeg_num b.Q_ne (neg_ne_zero.mpr h1) (b.QPi_ne' _)]
  · obtain ⟨k, hk⟩ : ∃ k, 2 * d = k + 1 := ⟨2 * d - 1, by omega⟩
    rw [hk, Finset.sum_range_succ]
    have e : (k + 1) • Q + Q = 0 := by rw [← succ_nsmul, ← hk]; exact b.basis.nsmul_right
    have e1 : denC (0 : MPoint A) = 1 := rfl
    rw [e, e1, poleDeg_one, Finset.sum_congr rfl (g := fun _ => 2), Finset.sum_const,
      Finset.card_range, smul_eq_mul]
    · omega
    intro i hi
    rw [Finset.mem_range] at hi
    rw [poleDeg_den]
    rw [← succ_nsmul]; exact b.Qj_ne (by omega) (by omega)

theorem exists_F : ∃ F, numF P Q d = denF P Q d * F ∧ F ≠ 0 ∧ evalPt Q F = 0 ∧ poleDeg F = 2 * d + 1 := by
  have hi := ideal_num (P := P) b.basis.nsmul_right
  have hle : Ideal.span {numF P Q d} ≤ Ideal.span {denF P Q d} := by
    rw [hi]; exact Ideal.mul_le_left (I := Ideal.span {denF P Q d}) (J := idealF P Q d)
  obtain ⟨F, hF⟩ := Ideal.mem_span_singleton.mp (hle (Ideal.mem_span_singleton_self _))
  have dn := b.pos
  have hN : numF P Q d ≠ 0 := numF_ne
  have hD : denF P Q d ≠ 0 := denF_ne
  have hF0 : F ≠ 0 := by rintro rfl; exact hN (by rw [hF, mul_zero])
  refine ⟨F, hF, hF0, ?_, ?_⟩
  · rw [hF, ← Ideal.span_singleton_mul_span_singleton, Ideal.span_singleton_mul_right_inj hD] at hi
    have : F ∈ idealF P Q d := by rw [← hi]; exact Ideal.mem_span_singleton_self F
    unfold idealF at this
    exact evalPt_ptIdeal (Ideal.mul_le_left this)
  · have hp := congrArg poleDeg hF
    rw [poleDeg_mul hD hF0] at hp
    rw [b.deg_num, b.deg_den] at hp
    omega

theorem kP (i : Nat) : (2 * d + 1) • (i • P) = 0 := by
  rw [smul_comm, b.basis.nsmul_left, nsmul_zero]

theorem kQ (i : Nat) : (2 * d + 1) • (i • Q) = 0 := by
  rw [smul_comm, b.basis.nsmul_right, nsmul_zero]

omit b in
theorem off {X S : MPoint A} (hX : (2 * d + 1) • X ≠ 0) (hS : (2 * d + 1) • S = 0) : X + S ≠ 0 := by
  intro h
  apply hX
  rw [eq_neg_of_add_eq_zero_left h, smul_neg, hS, neg_zero]

omit b in
theorem off' {X S : MPoint A} (hX : (2 * d + 1) • X ≠ 0) (hS : (2 * d + 1) • S = 0) : X - S ≠ 0 := by
  rw [sub_eq_add_neg]; exact off hX (by rw [smul_neg, hS, neg_zero])

omit b in
theorem off_add {X S : MPoint A} (hX : (2 * d + 1) • X ≠ 0) (hS : (2 * d + 1) • S = 0) :
    (2 * d + 1) • (X + S) ≠ 0 := by rwa [smul_add, hS, add_zero]

omit b in
theorem off_mem {X S : MPoint A} (hX : (2 * d + 1) • X ≠ 0) (hS : (2 * d + 1) • S = 0) :
    X ∉ AddSubgroup.zmultiples S := by
  intro h
  obtain ⟨j, rfl⟩ := AddSubgroup.mem_zmultiples_iff.mp h
  exact hX (by rw [smul_comm, hS, smul_zero])

omit b in
theorem off_den {X S : MPoint A} (hX : (2 * d + 1) • X ≠ 0) (hS : (2 * d + 1) • S = 0) :
    evalPt X (denC S) ≠ 0 := by
  have := den_mult (off_mem hX hS) 1
  rwa [one_nsmul] at this

omit b in
theorem num_gv {V W X : MPoint A} (h : evalPt X (denC (V + W)) ≠ 0) :
    evalPt X (numC V W) = gv V W X * evalPt X (denC (V + W)) := (div_mul_cancel₀ _ h).symm

/-- The polynomial with the roots `x(iP)`. -/
noncomputable def hp (P : MPoint A) (d : Nat) (s : K) : K := ∏ i ∈ Finset.range d, (s - xc ((i + 1) • P))

omit [DecidableEq K] b in
theorem evalPt_denC {X S : MPoint A} (hX : X ≠ 0) (hS : S ≠ 0) : evalPt X (denC S) = xc X - xc S := by
  rcases X with _ | ⟨x, y, k⟩
  · exact absurd rfl hX
  rcases S with _ | ⟨x', y', k'⟩
  · exact absurd rfl hS
  exact evalPt_den _ _

omit b in
theorem zero_ne_of_off {X : MPoint A} (hX : (2 * d + 1) • X ≠ 0) : X ≠ 0 := by
  rintro rfl; exact hX (smul_zero _)

theorem hp_ne {X : MPoint A} (hX : (2 * d + 1) • X ≠ 0) : hp P d (xc X) ≠ 0 := by
  refine Finset.prod_ne_zero_iff.mpr fun i hi => ?_
  rw [Finset.mem_range] at hi
  exact sub_ne_zero.mpr (xc_ne (zero_ne_of_off hX) (b.Pi_ne (by omega) (by omega)) (off hX (b.kP _))
    (off' hX (b.kP _)))

theorem hpQ_ne : hp P d (xc Q) ≠ 0 := by
  refine Finset.prod_ne_zero_iff.mpr fun i hi => ?_
  rw [Finset.mem_range] at hi
  exact sub_ne_zero.mpr (xc_ne b.Q_ne (b.Pi_ne (by omega) (by omega)) (b.QPi_ne _)
    (by rw [sub_eq_add_neg]; exact b.QPi_ne' _))

/-- The value of the function. -/
theorem val {F : (mont A).CoordinateRing} (hF : numF P Q d = denF P Q d * F) {X : MPoint A}
    (hX : (2 * d + 1) • X ≠ 0) :
    evalPt X F * hp P d (xc Q) = mil Q X (2 * d + 1) * hp P d (xc (X - Q)) := by
  have X0 := zero_ne_of_off hX
  have kQ1 := b.basis.nsmul_right
  have kPn : ∀ i : Nat, (2 * d + 1) • -(i • P) = 0 := fun i => by rw [smul_neg, b.kP, neg_zero]
  have s1 : ∀ i : Nat, (2 * d + 1) • (Q + i • P) = 0 := fun i => by rw [smul_add, kQ1, b.kP, add_zero]
  have s2 : ∀ i : Nat, (2 * d + 1) • (Q + -(i • P)) = 0 := fun i => by rw [smul_add, kQ1, kPn, add_zero]
  have s3 : ∀ j : Nat, (2 * d + 1) • (j • Q + Q) = 0 := fun j => by rw [smul_add, kQ1, b.kQ, add_zero]
  have e := congrArg (evalPt X) hF
  unfold numF denF at e
  simp only [evalPt_mul, evalPt_prod X0, Finset.prod_mul_distrib] at e
  have r1 : ∏ j ∈ Finset.range (2 * d), evalPt X (numC ((j + 1) • Q) Q) = mil Q X (2 * d + 1) *
      ∏ j ∈ Finset.range (2 * d), evalPt X (denC ((j + 1) • Q + Q)) := by
    rw [mil_prod (off_mem hX kQ1), ← Finset.prod_mul_distrib]
    exact Finset.prod_congr rfl fun j _ => num_gv (off_den hX (s3 (j + 1)))
  have r2 : ∏ i ∈ Finset.range d, evalPt X (numC Q ((i + 1) • P)) =
      (∏ i ∈ Finset.range d, gv Q ((i + 1) • P) X) *
        ∏ i ∈ Finset.range d, evalPt X (denC (Q + (i + 1) • P)) := by
    rw [← Finset.prod_mul_distrib]
    exact Finset.prod_congr rfl fun i _ => num_gv (off_den hX (s1 (i + 1)))
  have r3 : ∏ i ∈ Finset.range d, evalPt X (numC Q (-((i + 1) • P))) =
      (∏ i ∈ Finset.range d, gv Q (-((i + 1) • P)) X) *
        ∏ i ∈ Finset.range d, evalPt X (denC (Q + -((i + 1) • P))) := by
    rw [← Finset.prod_mul_distrib]
    exact Finset.prod_congr rfl fun i _ => num_gv (off_den hX (s2 (i + 1)))
  rw [r1, r2, r3] at e
  have n1 : ∏ i ∈ Finset.range d, evalPt X (denC (Q + (i + 1) • P)) ≠ 0 :=
    Finset.prod_ne_zero_iff.mpr fun i _ => off_den hX (s1 _)
  have n2 : ∏ i ∈ Finset.range d, evalPt X (denC (Q + -((i + 1) • P))) ≠ 0 :=
    Finset.prod_ne_zero_iff.mpr fun i _ => off_den hX (s2 _)
  have n3 : ∏ j ∈ Finset.range (2 * d), evalPt X (denC ((j + 1) • Q + Q)) ≠ 0 :=
    Finset.prod_ne_zero_iff.mpr fun i _ => off_den hX (s3 _)
  have g : (∏ i ∈ Finset.range d, gv Q ((i + 1) • P) X) * (∏ i ∈ Finset.range d, gv Q (-((i + 1) • P)) X) *
      hp P d (xc (X - Q)) = hp P d (xc X) * hp P d (xc Q) := by
    unfold hp
    simp only [← Finset.prod_mul_distrib]
    refine Finset.prod_congr rfl fun i hi => ?_
    rw [Finset.mem_range] at hi
    exact gv_pair (X := X) b.Q_ne (b.Pi_ne (i := i + 1) (by omega) (by omega)) X0 (b.QPi_ne _)
      (by rw [sub_eq_add_neg]; exact b.QPi_ne' _) (off hX kQ1) (off' hX kQ1) (off' hX (s1 _))
      (off' hX (by rw [sub_eq_add_neg]; exact s2 _)) (off hX (s1 _))
      (off hX (by rw [sub_eq_add_neg]; exact s2 _))
  have hd : ∏ i ∈ Finset.range d, evalPt X (denC ((i + 1) • P)) = hp P d (xc X) :=
    Finset.prod_congr rfl fun i hi => by
      rw [Finset.mem_range] at hi
      exact evalPt_denC X0 (b.Pi_ne (by omega) (by omega))
  rw [hd] at e
  apply mul_left_cancel₀ (mul_ne_zero (mul_ne_zero n1 (mul_ne_zero n2 n3)) (b.hp_ne hX))
  linear_combination (-hp P d (xc (X - Q))) * e + (∏ i ∈ Finset.range d, evalPt X (denC (Q + (i + 1) • P))) *
    ((∏ i ∈ Finset.range d, evalPt X (denC (Q + -((i + 1) • P)))) *
      ∏ j ∈ Finset.range (2 * d), evalPt X (denC ((j + 1) • Q + Q))) * evalPt X F * (-g)

/-- Miller's function of `-P` compares the polynomial at `X` and at `X + P`. -/
theorem translate : ∃ c : K, ∀ X : MPoint A, (2 * d + 1) • X ≠ 0 →
    mil (-P) X (2 * d + 1) * hp P d (xc (X + P)) = c * hp P d (xc X) := by
  refine ⟨∏ i ∈ Finset.range d, if i = 0 then 2 * yc (-P) else xc (-P) - xc ((i + 1) • P), fun X hX => ?_⟩
  have dn := b.pos
  have X0 := zero_ne_of_off hX
  have kP1 := b.basis.nsmul_left
  have kN : (2 * d + 1) • -P = 0 := by rw [smul_neg, kP1, neg_zero]
  have kN' : ∀ i : Nat, (2 * d + 1) • (i • -P) = 0 := fun i => by rw [smul_comm, kN, smul_zero]
  have P0 : P ≠ 0 := by have := b.Pi_ne (i := 1) le_rfl (by omega); rwa [one_nsmul] at this
  have N0 : -P ≠ 0 := neg_ne_zero.mpr P0
  rw [mil_prod (off_mem hX kN), two_mul, Finset.prod_range_add]
  rw [← Finset.prod_range_reflect (fun x => gv ((d + x + 1) • -P) (-P) X)]
  unfold hp
  simp only [← Finset.prod_mul_distrib]
  refine Finset.prod_congr rfl fun i hi => ?_
  rw [Finset.mem_range] at hi
  have e1 : (d + (d - 1 - i) + 1) • -P = (i + 1) • P := by
    have h : (d + (d - 1 - i) + 1) + (i + 1) = 2 * d + 1 := by omega
    rw [smul_neg, neg_eq_iff_add_eq_zero, ← add_nsmul, h, kP1]
  have e2 : (i + 1) • -P = -((i + 1) • P) := smul_neg _ _
  rw [e1, e2]
  have kd : ∀ S : MPoint A, (2 * d + 1) • S = 0 → evalPt X (denC S) ≠ 0 := fun S hS => off_den hX hS
  have kR : (2 * d + 1) • -((i + 1) • P) = 0 := by rw [smul_neg, b.kP, neg_zero]
  split
  next h0 =>
    subst h0
    rw [zero_add, one_nsmul]
    have t := gv_tangent (S := -P) (C := X + P) N0 (off hX kP1)
      (by
        have := b.Pi_ne (i := 2) (by omega) (by omega)
        rw [two_nsmul] at this
        rw [← neg_add]; exact neg_ne_zero.mpr this)
      (by rwa [neg_add_cancel_comm_assoc]) (by
        rw [sub_neg_eq_add]; exact off (off_add hX kP1) kP1)
      (by
        rw [neg_add_cancel_comm_assoc]; exact off hX (by rw [smul_add, kN, add_zero]))
    rw [neg_add_cancel_comm_assoc, xc_neg] at t
    rw [gv_opp P0 X0]
    linear_combination (xc X - xc P) * t
  next h0 =>
    have ne1 : P + (i + 1) • P ≠ 0 := by
      rw [← succ_nsmul']; exact b.Pi_ne (by omega) (by omega)
    have ne2 : (i + 1) • P - P ≠ 0 := by
      rw [succ_nsmul, add_sub_cancel_right]; exact b.Pi_ne (by omega) (by omega)
    have a1 : -P + (i + 1) • P ≠ 0 := by rwa [neg_add_eq_sub]
    have a2 : -P - (i + 1) • P ≠ 0 := by rw [← neg_add']; exact neg_ne_zero.mpr ne1
    have k1 : (2 * d + 1) • (-P + (i + 1) • P) = 0 := by rw [smul_add, kN, b.kP, add_zero]
    have k2 : (2 * d + 1) • (-P - (i + 1) • P) = 0 := by rw [smul_sub, kN, b.kP, sub_zero]
    have g := gv_pair (X := X) N0 (b.Pi_ne (i := i + 1) (by omega) (by omega)) X0 a1 a2
      (off hX kN) (off' hX kN) (off' hX k1) (off' hX k2) (off hX k1) (off hX k2)
    rw [sub_neg_eq_add] at g
    rw [gv_comm (kd _ kR) (kd _ kN) (kd _ (by rw [smul_add, kR, kN, add_zero])),
      gv_comm (kd _ (b.kP _)) (kd _ kN) (kd _ (by rw [smul_add, b.kP, kN, add_zero]))]
    linear_combination g

/-- With a trivial pairing the function is invariant under the translation by `P`, up to the polynomial. -/
theorem invariant (hw : we (2 * d + 1) P Q = 1) {X : MPoint A} (hX : (2 * d + 1) • X ≠ 0) :
    mil Q (X + P) (2 * d + 1) * hp P d (xc (X + P - Q)) * hp P d (xc X) =
      mil Q X (2 * d + 1) * hp P d (xc (X - Q)) * hp P d (xc (X + P)) := by
  have dn := b.pos
  have X0 := zero_ne_of_off hX
  have kP1 := b.basis.nsmul_left
  have kQ1 := b.basis.nsmul_right
  have kN : (2 * d + 1) • -P = 0 := by rw [smul_neg, kP1, neg_zero]
  have P0 : P ≠ 0 := by have := b.Pi_ne (i := 1) le_rfl (by omega); rwa [one_nsmul] at this
  have N0 : -P ≠ 0 := neg_ne_zero.mpr P0
  have nd : ND P Q := b.basis.nd (by omega)
  have hXQ : (2 * d + 1) • (X - Q) ≠ 0 := by rwa [smul_sub, kQ1, sub_zero]
  have odd : ∀ x : K, -((-1) ^ (2 * d + 1) * (x * -1)) = -x := fun x => by
    rw [pow_succ, pow_mul]; simp
  have h0 : ∀ S T : MPoint A, hv S T 0 = -1 := fun S T => if_pos rfl
  have m1 := mil_arg_add (P := Q) (off_mem hX kQ1) nd.1 (off_mem (off_add hX kP1) kQ1) (2 * d + 1) (by omega)
  rw [kQ1, h0, odd, hv_self b.Q_ne] at m1
  have qn : Q ∉ AddSubgroup.zmultiples (-P) := by rw [AddSubgroup.zmultiples_neg]; exact nd.2
  have m2 := mil_arg_add (P := -P) (Q := X - Q) (R := Q) (off_mem hXQ kN) qn
    (by rw [sub_add_cancel]; exact off_mem hX kN) (2 * d + 1) (by omega)
  rw [kN, h0, odd, hv_self N0, sub_add_cancel] at m2
  have m3 := mil_base_add (Q := P) (R := -P) (X := Q) nd.2 qn (by
    rw [add_neg_cancel]; simpa using b.Q_ne) (2 * d + 1) (by omega)
  have dz : evalPt Q (denC (0 : MPoint A)) ≠ 0 := by
    have := den_mult nd.2 0; rwa [zero_nsmul] at this
  rw [add_neg_cancel, mil_zero _ b.Q_ne _ (by omega), kP1, kN, gv_zero_left dz, gv_opp P0 b.Q_ne, one_mul,
    mul_one] at m3
  have sw := gv_swap P0 b.Q_ne X0 (off hX kP1) (off' hX kP1) (off' hX kQ1) (off hX kQ1)
    (off' (off_add hX kP1) kQ1) (off (off_add hX kP1) kQ1)
  have w1 : mil Q P (2 * d + 1) = -mil P Q (2 * d + 1) := by
    unfold we at hw
    rw [div_eq_one_iff_eq (mil_ne nd.1 _ (by omega)), pow_succ, pow_mul] at hw
    rw [← hw]; simp
  have key : mil Q (X + P) (2 * d + 1) * mil (-P) X (2 * d + 1) =
      mil Q X (2 * d + 1) * mil (-P) (X - Q) (2 * d + 1) := by
    have hne : (xc P - xc Q) ^ (2 * d + 1) ≠ 0 := pow_ne_zero _ (sub_ne_zero.mpr fun h => by
      rcases (xc_eq_iff P0 b.Q_ne).mp h with e | e
      · exact nd.1 (by rw [e]; exact AddSubgroup.mem_zmultiples _)
      · exact nd.1 (by rw [e]; exact neg_mem (AddSubgroup.mem_zmultiples _)))
    apply mul_right_cancel₀ hne
    have s1 : (xc Q - xc P) ^ (2 * d + 1) = -(xc P - xc Q) ^ (2 * d + 1) := by
      rw [← neg_sub, Odd.neg_pow ⟨d, rfl⟩]
    rw [s1] at m3
    have s2 : (xc P - xc Q) ^ (2 * d + 1) = gv X P Q ^ (2 * d + 1) * gv (X - Q) Q (-P) ^ (2 * d + 1) := by
      rw [← sw, mul_pow]
    calc _ = (mil Q (X + P) (2 * d + 1) * gv X P Q ^ (2 * d + 1)) *
          (mil (-P) X (2 * d + 1) * gv (X - Q) Q (-P) ^ (2 * d + 1)) := by rw [s2]; ring
      _ = mil Q X (2 * d + 1) * mil (-P) (X - Q) (2 * d + 1) *
          (mil Q P (2 * d + 1) * mil (-P) Q (2 * d + 1)) := by rw [m1, m2]; ring
      _ = _ := by rw [w1]; linear_combination mil Q X (2 * d + 1) * mil (-P) (X - Q) (2 * d + 1) * m3
  obtain ⟨c, hc⟩ := b.translate
  have t1 := hc X hX
  have t2 := hc (X - Q) hXQ
  have c0 : c ≠ 0 := by
    rintro rfl
    rw [zero_mul] at t1
    exact mul_ne_zero (mil_ne (off_mem hX kN) _ (by omega)) (b.hp_ne (off_add hX kP1)) t1
  have e : X - Q + P = X + P - Q := by abel
  rw [e] at t2
  apply mul_left_cancel₀ c0
  linear_combination (-mil Q (X + P) (2 * d + 1) * hp P d (xc (X + P - Q))) * t1 +
    hp P d (xc (X + P)) * hp P d (xc (X + P - Q)) * key + mil Q X (2 * d + 1) * hp P d (xc (X + P)) * t2

theorem we_ne (h2 : (2 : K) ≠ 0) (hA : A * A ≠ 4) : we (2 * d + 1) P Q ≠ 1 := by
  intro hw
  have dn := b.pos
  obtain ⟨F, hF, F0, FQ, Fd⟩ := b.exists_F
  have kP1 := b.basis.nsmul_left
  have hk : (mont A).Nonsingular 0 0 := nonsing_of h2 hA (by ring)
  obtain ⟨T, T0, TT⟩ : ∃ T : MPoint A, T ≠ 0 ∧ T + T = 0 :=
    ⟨.some 0 0 hk, Point.some_ne_zero hk, (add_self_iff h2 (Point.some_ne_zero hk)).mpr rfl⟩
  have lT : (2 * d + 1) • T = T := by
    rw [succ_nsmul, mul_comm, mul_nsmul', two_nsmul, TT, nsmul_zero, zero_add]
  have off : ∀ i : Nat, (2 * d + 1) • (T + i • P) ≠ 0 := fun i => by
    rw [smul_add, lT, b.kP, add_zero]; exact T0
  have offT : (2 * d + 1) • T ≠ 0 := by rwa [lT]
  have hQ := b.hpQ_ne
  have step : ∀ i : Nat, evalPt (T + i • P) F * hp P d (xc T) = evalPt T F * hp P d (xc (T + i • P)) := by
    intro i
    induction i with
    | zero => rw [zero_nsmul, add_zero]
    | succ i ih =>
      have inv := b.invariant hw (off i)
      have v1 := b.val hF (off i)
      have v2 := b.val hF (off (i + 1))
      rw [succ_nsmul, ← add_assoc] at v2 ⊢
      rw [← v1, ← v2] at inv
      apply mul_left_cancel₀ (mul_ne_zero (b.hp_ne (off i)) hQ)
      linear_combination hp P d (xc T) * inv + hp P d (xc (T + i • P + P)) * hp P d (xc Q) * ih
  have hT := b.hp_ne offT
  obtain ⟨c, hc⟩ : ∃ c, evalPt T F = c * hp P d (xc T) := ⟨evalPt T F / hp P d (xc T), (div_mul_cancel₀ _ hT).symm⟩
  have vals : ∀ i : Nat, evalPt (T + i • P) F = c * hp P d (xc (T + i • P)) := fun i => by
    apply mul_right_cancel₀ hT
    rw [step, hc]; ring
  obtain ⟨p, q, rfl⟩ := exists_smul_basis_eq F
  obtain ⟨dp, dq⟩ := poleDeg_bound F0 Fd
  have ne : ∀ i : Nat, T + i • P ≠ 0 := fun i => zero_ne_of_off (off i)
  have vals' : ∀ i : Nat, p.eval (xc (T + i • P)) + q.eval (xc (T + i • P)) * yc (T + i • P) =
      c * hp P d (xc (T + i • P)) := fun i => by rw [← evalPt_basis (ne i), vals]
  have nT : -T = T := (eq_neg_of_add_eq_zero_left TT).symm
  have refl : ∀ i : Nat, i ≤ d → T + (2 * d + 1 - i) • P = -(T + i • P) := by
    intro i hi
    rw [neg_add, nT]
    congr 1
    rw [eq_neg_iff_add_eq_zero, ← add_nsmul, Nat.sub_add_cancel (by omega), kP1]
  have qy : ∀ i : Nat, i ≤ d → q.eval (xc (T + i • P)) * yc (T + i • P) = 0 := by
    intro i hi
    have a1 := vals' i
    have a2 := vals' (2 * d + 1 - i)
    rw [refl i hi, xc_neg, yc_neg] at a2
    apply (mul_eq_zero.mp (show (2 : K) * _ = 0 from ?_)).resolve_left h2
    linear_combination a1 - a2
  have inj : ∀ i j : Nat, i ≤ d → j ≤ d → xc (T + i • P) = xc (T + j • P) → i = j := by
    have dif : ∀ i j : Nat, i ≤ d → j ≤ i → i • P = j • P → i = j := by
      intro i j hi hj h
      by_contra hne
      refine b.Pi_ne (i := i - j) (by omega) (by omega) ?_
      have e : i = (i - j) + j := by omega
      rw [e, add_nsmul] at h
      exact left_eq_add.mp (h.symm.trans (add_comm _ _))
    intro i j hi hj h
    rcases (xc_eq_iff (ne i) (ne j)).mp h with e | e
    · have e := add_left_cancel e
      rcases Nat.le_total j i with hl | hl
      · exact dif i j hi hl e
      · exact (dif j i hj hl e.symm).symm
    · rw [neg_add, nT] at e
      have e := add_left_cancel e
      by_contra hne
      refine b.Pi_ne (i := i + j) (by omega) (by omega) ?_
      rw [add_nsmul, e, neg_add_cancel]
  have q0 : q = 0 := by
    by_contra hq
    apply hq
    refine eq_zero_of_natDegree_lt_card_of_eval_eq_zero q (f := fun i : Fin d => xc (T + (i.1 + 1) • P)) ?_ ?_ ?_
    · intro i j h
      have := inj _ _ (by omega) (by omega) h
      exact Fin.ext (by omega)
    · intro i
      refine (mul_eq_zero.mp (qy (i.1 + 1) (by omega))).resolve_right fun hy => ?_
      have := (add_self_iff h2 (ne _)).mpr hy
      rw [add_add_add_comm, TT, zero_add, ← add_nsmul] at this
      exact b.Pi_ne (by omega) (by omega) this
    · have := dq hq
      rw [Fintype.card_fin]; omega
  set H : K[X] := ∏ i ∈ Finset.range d, (X - C (xc ((i + 1) • P))) with hH
  have He : ∀ s, H.eval s = hp P d s := fun s => by rw [hH, eval_prod]; simp [hp]
  have pe : p - C c * H = 0 := by
    refine eq_zero_of_natDegree_lt_card_of_eval_eq_zero _ (f := fun i : Fin (d + 1) => xc (T + i.1 • P)) ?_ ?_ ?_
    · intro i j h
      exact Fin.ext (inj _ _ (by omega) (by omega) h)
    · intro i
      have := vals' i.1
      rw [q0, eval_zero, zero_mul, add_zero] at this
      rw [eval_sub, eval_mul, eval_C, He, this, sub_self]
    · rw [Fintype.card_fin]
      refine Nat.lt_succ_of_le ((natDegree_sub_le _ _).trans (max_le (by omega) ?_))
      refine (natDegree_C_mul_le _ _).trans ?_
      rw [hH, natDegree_prod_of_monic _ _ fun i _ => monic_X_sub_C _]
      simp
  have pe := sub_eq_zero.mp pe
  rw [evalPt_basis b.Q_ne, q0, eval_zero, zero_mul, add_zero, pe, eval_mul, eval_C, He] at FQ
  have c0 : c = 0 := (mul_eq_zero.mp FQ).resolve_right hQ
  apply F0
  rw [q0, pe, c0]; simp

end OddBasis

/-- The Weil pairing of a basis is a root of unity of exact order. -/
theorem IsBasis.we_orderOf (h2 : (2 : K) ≠ 0) (hA : A * A ≠ 4) {P Q : MPoint A} {n : Nat} (hn : 2 ≤ n)
    (hb : IsBasis n P Q) : orderOf (we n P Q) = n := by
  refine orderOf_eq_of_pow_and_pow_div_prime (by omega) (hb.symm.we_eq h2 hA hn 1 0 le_rfl (by omega)).2 ?_
  intro r hr hrn
  obtain ⟨m, rfl⟩ := hrn
  have hm : 1 ≤ m := by
    rcases Nat.eq_zero_or_pos m with rfl | h
    · omega
    · exact h
  rw [Nat.mul_div_cancel_left m hr.pos]
  have key : ∀ P Q : MPoint A, IsBasis (r * m) P Q → ∀ i, 1 ≤ i → i ≤ m →
      i • P ∉ AddSubgroup.zmultiples Q := by
    intro P Q hb i h1 h3 hmem
    obtain ⟨j, hj⟩ := AddSubgroup.mem_zmultiples_iff.mp hmem
    have := ((hb i (-j)).mp (by rw [neg_zsmul, hj, natCast_zsmul, add_neg_cancel])).1
    exact not_dvd_lt (d := r * m) h1 (by have := hr.two_le; nlinarith) this
  have sub : ∀ {S : MPoint A}, S ∈ AddSubgroup.zmultiples (m • Q) → S ∈ AddSubgroup.zmultiples Q := by
    intro S hS
    obtain ⟨j, rfl⟩ := AddSubgroup.mem_zmultiples_iff.mp hS
    exact AddSubgroup.zsmul_mem _ (AddSubgroup.nsmul_mem_zmultiples Q m) j
  have e := (hb.symm.we_eq h2 hA hn m 0 hm (by have := hr.two_le; nlinarith)).1
  rw [zero_nsmul, add_zero] at e
  rw [← e, we_mul hm hr.one_le (fun i h1 h3 hmem => key P Q hb i h1 h3 (sub hmem))
    (key Q P hb.symm m hm le_rfl) (by rw [← mul_nsmul']; exact hb.nsmul_right)]
  have hb' : IsBasis r (m • P) (m • Q) := IsBasis.nsmul (by rwa [mul_comm]) hm
  rcases hr.eq_two_or_odd' with rfl | ⟨d, rfl⟩
  · have := IsBasis.we_half h2 hA le_rfl (m := 1) hb'
    rw [mul_one, pow_one] at this
    rw [this]
    intro h
    apply h2; linear_combination -h
  · exact OddBasis.we_ne ⟨by have := hr.two_le; omega, hb'⟩ h2 hA

end Festa
