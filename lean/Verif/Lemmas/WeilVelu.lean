import Verif.Lemmas.GvFormula
import Verif.Lemmas.VeluHom
import Mathlib.GroupTheory.SpecificGroups.Cyclic
/-!
The Weil pairing and isogenies over an algebraically closed field: the pairing of the images is the
pairing raised to the degree.
-/
namespace Festa
open WeierstrassCurve.Affine Polynomial
variable {L : Type*} [Field L] [DecidableEq L] {A : L}
variable {G : AddSubgroup (MPoint A)} [Fintype G]

/-- Half of the denominator of the isogeny: its square is `cs`. -/
noncomputable def hc (d : Nat) (e : Nat → G) (s : L) : L := ∏ i ∈ Finset.range d, (s - xc (e i).1)

section
variable {d : Nat} {e : Nat → G} (hH : IsHalf G d e)
include hH

theorem hc_sq (s : L) : cs G s = hc d e s ^ 2 := by
  unfold cs hc
  rw [hH.2, ← Finset.prod_pow]
  refine Finset.prod_congr rfl fun i _ => ?_
  rw [NegMemClass.coe_neg, xc_neg, sq]

theorem half_card [IsAlgClosed L] : Fintype.card G = 2 * d + 1 := by
  have h : (X ^ (gs G).card : L[X]) = X ^ (2 * d) := by
    apply Polynomial.funext
    intro r
    have := hH.2 (fun _ => r)
    rw [Finset.prod_const, Finset.prod_const, Finset.card_range, ← sq, ← pow_mul] at this
    simpa using this
  have h' := congrArg natDegree h
  rw [natDegree_X_pow, natDegree_X_pow] at h'
  rw [← card_gs, h']

/-- Doubling permutes the pairs. -/
theorem hc_dbl [IsAlgClosed L] (hodd : Odd (Fintype.card G)) (s : L) :
    ∏ i ∈ Finset.range d, (s - xc ((e i).1 + (e i).1)) = hc d e s := by
  have h : (∏ i ∈ Finset.range d, (X - C (xc ((e i).1 + (e i).1))) : L[X]) ^ 2 =
      (∏ i ∈ Finset.range d, (X - C (xc (e i).1))) ^ 2 := by
    apply Polynomial.funext
    intro r
    have h1 := hH.2 (fun g => r - xc (g + g).1)
    rw [prod_gs_dbl hodd (fun g => r - xc g.1), hH.2] at h1
    simp only [NegMemClass.coe_neg, AddMemClass.coe_add, xc_neg, ← neg_add] at h1
    simp only [eval_pow, eval_prod, eval_sub, eval_X, eval_C]
    rw [← Finset.prod_pow, ← Finset.prod_pow]
    simp only [sq]
    exact h1.symm
  have m1 : (∏ i ∈ Finset.range d, (X - C (xc ((e i).1 + (e i).1))) : L[X]).Monic :=
    monic_prod_of_monic _ _ fun _ _ => monic_X_sub_C _
  have m2 : (∏ i ∈ Finset.range d, (X - C (xc (e i).1)) : L[X]).Monic :=
    monic_prod_of_monic _ _ fun _ _ => monic_X_sub_C _
  have h2 : (∏ i ∈ Finset.range d, (X - C (xc ((e i).1 + (e i).1))) : L[X]) =
      ∏ i ∈ Finset.range d, (X - C (xc (e i).1)) := by
    rcases sq_eq_sq_iff_eq_or_eq_neg.mp h with h' | h'
    · exact h'
    · have := congrArg leadingCoeff h'
      rw [leadingCoeff_neg, m1, m2] at this
      have e1 : (1 : L[X]) = -1 := by
        rw [← C_1, ← C_neg, ← this]
      rw [h', ← neg_one_mul, ← e1, one_mul]
  have := congrArg (eval s) h2
  simp only [eval_prod, eval_sub, eval_X, eval_C] at this
  exact this

theorem hc_ne {Q : MPoint A} (hQ : Q ∉ G) : hc d e (xc Q) ≠ 0 := fun h => cs_ne hQ (by
  rw [hc_sq hH, h]; exact zero_pow two_ne_zero)

/-- Differences of abscissas of images. -/
theorem fx_diff [IsAlgClosed L] (v : VD G) {Q R : MPoint A} (hQ : Q ∉ G) (hR : R ∉ G) (h1 : R + Q ∉ G)
    (h2 : R - Q ∉ G) :
    px G * ((xc R - xc Q) ^ Fintype.card G * (hc d e (xc (R + Q)) * hc d e (xc (R - Q)))) =
      hc d e (xc R) ^ 2 * hc d e (xc Q) ^ 2 * (fx G R - fx G Q) := by
  have n := v.norm_pt hQ hR
  rw [hc_sq hH] at n
  have hx := xc_ne (ne_of_not_mem hR) (ne_of_not_mem hQ) (ne_of_not_mem h1) (ne_of_not_mem h2)
  have key : (∏ g : G, (xc R - xc (Q + g.1))) * hc d e (xc Q) ^ 2 =
      (xc R - xc Q) ^ Fintype.card G * (hc d e (xc (R + Q)) * hc d e (xc (R - Q))) := by
    rw [prod_split, hH.2, half_card hH, ZeroMemClass.coe_zero, add_zero, pow_succ' (xc R - xc Q), mul_assoc, mul_assoc]
    congr 1
    unfold hc
    rw [pow_mul, ← Finset.card_range d, ← Finset.prod_const, Finset.card_range, ← Finset.prod_pow,
      ← Finset.prod_mul_distrib, ← Finset.prod_mul_distrib, ← Finset.prod_mul_distrib]
    refine Finset.prod_congr rfl fun i hi => ?_
    have he : (e i).1 ≠ 0 := fun h => hH.1 i (Finset.mem_range.mp hi) (Subtype.ext h)
    have hg : e i ∈ gs G := mem_gs.mpr (hH.1 i (Finset.mem_range.mp hi))
    have p1 := phi3_eq (ne_of_not_mem hQ) he (xc_ne_gs hQ hg) (xc R)
    have p2 := phi3_eq (ne_of_not_mem hR) (ne_of_not_mem hQ) hx (xc (e i).1)
    have ps : phi3 A (xc Q) (xc (e i).1) (xc R) = phi3 A (xc R) (xc Q) (xc (e i).1) := by
      unfold phi3 sfun; ring
    rw [NegMemClass.coe_neg, ← sub_eq_add_neg]
    linear_combination p1 + ps - p2
  calc _ = px G * ((∏ g : G, (xc R - xc (Q + g.1))) * hc d e (xc Q) ^ 2) := by rw [key]
    _ = _ := by linear_combination hc d e (xc Q) ^ 2 * n

/-- The constant of the ordinates. -/
noncomputable def muc (d : Nat) (e : Nat → G) : L := ∏ i ∈ Finset.range d, (-4 * yc (e i).1 ^ 2)

/-- The ordinate of an image. -/
theorem fy_formula [IsAlgClosed L] (v : VD G) {S : MPoint A} (hS : S + S ∉ G) :
    fy G S * hc d e (xc S) ^ 4 = muc d e * (yc S ^ Fintype.card G * hc d e (xc (S + S))) := by
  have hS0 : S ∉ G := fun h => hS (G.add_mem h h)
  unfold fy
  rw [prod_split, hH.2, ZeroMemClass.coe_zero, add_zero, half_card hH, pow_succ' (yc S),
    ← hc_dbl hH v.hodd (xc (S + S))]
  unfold hc muc
  rw [mul_assoc (yc S), mul_assoc (yc S), mul_left_comm _ (yc S)]
  congr 1
  rw [pow_mul, ← Finset.card_range d, ← Finset.prod_const, Finset.card_range, ← Finset.prod_pow,
      ← Finset.prod_mul_distrib, ← Finset.prod_mul_distrib, ← Finset.prod_mul_distrib]
  refine Finset.prod_congr rfl fun i hi => ?_
  have he : (e i).1 ≠ 0 := fun h => hH.1 i (Finset.mem_range.mp hi) (Subtype.ext h)
  have hg : e i ∈ gs G := mem_gs.mpr (hH.1 i (Finset.mem_range.mp hi))
  have a1 : S + (e i).1 ∉ G := fun h => hS0 (by simpa using G.sub_mem h (e i).2)
  have a2 : S - (e i).1 ∉ G := fun h => hS0 (by simpa using G.add_mem h (e i).2)
  have a3 : S + (e i).1 + (S - (e i).1) = S + S := by abel
  have a4 : S + (e i).1 - (S - (e i).1) = (e i).1 + (e i).1 := by abel
  have hx := xc_ne (ne_of_not_mem a1) (ne_of_not_mem a2) (by rw [a3]; exact ne_of_not_mem hS)
    (by rw [a4]; exact fun h => he (mem_of_dbl v.hodd (e i).2 h))
  have h1 := xc_add_sub (ne_of_not_mem a1) (ne_of_not_mem a2) hx
  rw [a3, a4] at h1
  have h2 := xc_add_sub (ne_of_not_mem hS0) he (xc_ne_gs hS0 hg)
  rw [NegMemClass.coe_neg, ← sub_eq_add_neg]
  have h4 : (4 : L) ≠ 0 := by
    have : (4 : L) = 2 * 2 := by norm_num
    rw [this]; exact mul_ne_zero v.h2 v.h2
  apply mul_left_cancel₀ h4
  generalize xc (S - (e i).1) = p at *
  generalize xc (S + (e i).1) = q at *
  linear_combination (-(xc S - xc (e i).1) ^ 4) * h1 +
    (xc ((e i).1 + (e i).1) - xc (S + S)) * ((p - q) * (xc S - xc (e i).1) ^ 2 + 4 * yc S * yc (e i).1) * h2

/-- The quotient of lines of the images, for half points. -/
theorem star_half [IsAlgClosed L] (v : VD G) {A' : L} {φ : MPoint A →+ MPoint A'} (hker : ∀ Q, φ Q = 0 ↔ Q ∈ G)
    {k : L} (hφ : ∀ Q, Q ∉ G → xc (φ Q) = fx G Q ∧ yc (φ Q) = k * fy G Q) {S B C : MPoint A} (hB : B ∉ G)
    (hC : C ∉ G) (hSS : S + S ∉ G) (h1 : S + B ∉ G) (h2 : S - B ∉ G) (h3 : S + C ∉ G) (h4 : C - S ∉ G)
    (h5 : C + B ∉ G) (h6 : C - B ∉ G) (h7 : S + C + S ∉ G) (h8 : S + C + (S + S) ∉ G)
    (h9 : S + C + (S + B) ∉ G) (h10 : S + C + (S - B) ∉ G) (h11 : S + C + B ∉ G) (h12 : S + C - B ∉ G) :
    gv (φ (S + B)) (φ (S - B)) (φ (S + C)) * (px G * 2 ^ Fintype.card G * (hc d e (xc (S + B)) *
        hc d e (xc (S - B)) * (hc d e (xc (S + C)) * hc d e (xc (C - S))))) =
      2 * k * muc d e * (hc d e (xc (S + S)) * (hc d e (xc (C + B)) * hc d e (xc (C - B)))) *
        gv (S + B) (S - B) (S + C) ^ Fintype.card G := by
  have hS : S ∉ G := fun h => hSS (G.add_mem h h)
  have n : ∀ {Q : MPoint A}, Q ∉ G → φ Q ≠ 0 := fun hQ h => hQ ((hker _).mp h)
  have m : ∀ {Q : MPoint A}, Q ∉ G → Q ≠ 0 := ne_of_not_mem
  have g := gv_half (m hS) (m hB) (m hC) (m hSS) (m h1) (m h2) (m h3) (m h4) (m h5) (m h6) (m h7) (m h8) (m h9)
    (m h10) (m h11) (m h12)
  have N : ∀ {Q R : MPoint A}, Q + R ∉ G → φ Q + φ R ≠ 0 := fun h => by rw [← map_add]; exact n h
  have M : ∀ {Q R : MPoint A}, Q - R ∉ G → φ Q - φ R ≠ 0 := fun h => by rw [← map_sub]; exact n h
  have g' := gv_half (n hS) (n hB) (n hC) (N hSS) (N h1) (M h2) (N h3) (M h4) (N h5) (M h6)
    (by simpa only [map_add] using n h7) (by simpa only [map_add] using n h8)
    (by simpa only [map_add] using n h9) (by simpa only [map_add, map_sub] using n h10)
    (by simpa only [map_add] using n h11) (by simpa only [map_add, map_sub] using n h12)
  rw [(hφ S hS).1, (hφ S hS).2, (hφ B hB).1, (hφ C hC).1, ← map_add, ← map_add, ← map_sub] at g'
  have a1 := fx_diff hH v hB hS h1 h2
  have a2 := fx_diff hH v hS hC (by rwa [add_comm]) h4
  have a3 := fx_diff hH v hB hC h5 h6
  have y := fy_formula hH v hSS
  rw [add_comm C S] at a2
  have gp := congrArg (· ^ Fintype.card G) g
  simp only [mul_pow] at gp
  have e1 := xc_ne (m hS) (m hB) (m h1) (m h2)
  have e2 := xc_ne (m hC) (m hS) (by rw [add_comm]; exact m h3) (m h4)
  apply mul_left_cancel₀ (mul_ne_zero (mul_ne_zero v.px_ne (pow_ne_zero (Fintype.card G) (sub_ne_zero.mpr e1)))
    (pow_ne_zero (Fintype.card G) (sub_ne_zero.mpr e2)))
  generalize (xc S - xc B) ^ Fintype.card G = sb at *
  generalize (xc C - xc S) ^ Fintype.card G = cs' at *
  generalize (xc C - xc B) ^ Fintype.card G = cb at *
  generalize (2 : L) ^ Fintype.card G = tw at *
  generalize yc S ^ Fintype.card G = ys at *
  generalize gv (S + B) (S - B) (S + C) ^ Fintype.card G = gd at *
  generalize gv (φ (S + B)) (φ (S - B)) (φ (S + C)) = gg at *
  generalize hc d e (xc (S + B)) = c1 at *
  generalize hc d e (xc (S - B)) = c2 at *
  generalize hc d e (xc (S + C)) = c3 at *
  generalize hc d e (xc (C - S)) = c4 at *
  generalize hc d e (xc (C + B)) = c5 at *
  generalize hc d e (xc (C - B)) = c6 at *
  generalize hc d e (xc (S + S)) = c7 at *
  generalize hc d e (xc S) = cS at *
  generalize hc d e (xc B) = cB at *
  generalize hc d e (xc C) = cC at *
  linear_combination tw * gg * (px G * (cs' * (c3 * c4))) * a1 + tw * gg * (cS ^ 2 * cB ^ 2 * (fx G S - fx G B)) * a2 +
    tw * cS ^ 4 * cB ^ 2 * cC ^ 2 * g' + tw * 2 * k * cB ^ 2 * cC ^ 2 * (fx G C - fx G B) * y -
    tw * 2 * k * muc d e * ys * c7 * a3 - 2 * k * muc d e * px G * c7 * c5 * c6 * gp

end

section
variable [IsAlgClosed L] (v : VD G)
include v

/-- The points of order two. -/
theorem VD.two_tors : ∃ T U : MPoint A, T ∉ G ∧ U ∉ G ∧ T + U ∉ G ∧ T + T = 0 ∧ U + U = 0 := by
  obtain ⟨t, ht⟩ : ∃ t : L, t ^ 2 + A * t + 1 = 0 := by
    have h2 := v.h2
    obtain ⟨s, hs⟩ := IsAlgClosed.exists_pow_nat_eq (A ^ 2 - 4) (n := 2) (by norm_num)
    refine ⟨(-A + s) / 2, ?_⟩
    field_simp
    linear_combination hs
  obtain ⟨T, hx, hy, h0, hT, hTG⟩ := exists_two_tors v ht
  have hk : (mont A).Nonsingular 0 0 := nonsing_of v.h2 v.hA (by ring)
  have hU0 : (.some 0 0 hk : MPoint A) ≠ 0 := Point.some_ne_zero hk
  have hU : (.some 0 0 hk : MPoint A) + .some 0 0 hk = 0 := (add_self_iff v.h2 hU0).mpr rfl
  refine ⟨T, .some 0 0 hk, hTG, fun h => hU0 (mem_of_dbl v.hodd h hU), fun h => ?_, hT, hU⟩
  have h1 : T + .some 0 0 hk = 0 := mem_of_dbl v.hodd h (by
    rw [add_add_add_comm, hT, hU, add_zero])
  have h2 : T = .some 0 0 hk := by
    rw [eq_neg_of_add_eq_zero_left h1]; exact neg_eq_of_add_eq_zero_left hU
  have : xc T = 0 := by rw [h2]; rfl
  rw [hx] at this
  exact root_ne_zero ht this

/-- Every point has a half. -/
theorem VD.exists_half (D : MPoint A) : ∃ S : MPoint A, S + S = D := by
  by_cases hD : D = 0
  · exact ⟨0, by rw [hD, add_zero]⟩
  obtain ⟨r, hr⟩ : ∃ r : L, (r ^ 2 - 1) ^ 2 = xc D * (4 * (r ^ 3 + A * r ^ 2 + r)) := by
    obtain ⟨r, hr⟩ := IsAlgClosed.exists_root (X ^ 4 + Polynomial.C (-4 * xc D) * X ^ 3 +
      Polynomial.C (-2 - 4 * xc D * A) * X ^ 2 + Polynomial.C (-4 * xc D) * X + 1 : L[X]) (by
        have : (X ^ 4 + Polynomial.C (-4 * xc D) * X ^ 3 +
          Polynomial.C (-2 - 4 * xc D * A) * X ^ 2 + Polynomial.C (-4 * xc D) * X + 1 : L[X]).degree = 4 := by
          compute_degree!
        rw [this]; decide)
    refine ⟨r, ?_⟩
    simp only [IsRoot.def, eval_add, eval_mul, eval_pow, eval_X, eval_C, eval_one] at hr
    linear_combination hr
  obtain ⟨y, hy⟩ := IsAlgClosed.exists_pow_nat_eq (r ^ 3 + A * r ^ 2 + r) (n := 2) (by norm_num)
  have hk : (mont A).Nonsingular r y := nonsing_of v.h2 v.hA (by linear_combination hy)
  obtain ⟨S, hS⟩ : ∃ S : MPoint A, S = .some r y hk := ⟨_, rfl⟩
  have hS0 : S ≠ 0 := by rw [hS]; exact Point.some_ne_zero hk
  have hx : xc S = r := by rw [hS]; rfl
  have hys : yc S = y := by rw [hS]; rfl
  have hSS : S + S ≠ 0 := fun h => by
    have h0 := (add_self_iff v.h2 hS0).mp h
    rw [hys] at h0
    rw [h0] at hy
    have hr1 : r ^ 2 - 1 = 0 := pow_eq_zero_iff two_ne_zero |>.mp (by rw [hr, ← hy]; ring)
    have hr2 : 2 + A * r = 0 := by linear_combination -r * hy - (r ^ 2 + A * r + 2) * hr1
    exact v.hA (by linear_combination (A * r - 2) * hr2 - A ^ 2 * hr1)
  have h1 := xc_double v.h2 hSS
  rw [hx, hys] at h1
  have hx' : xc (S + S) = xc D := by
    have hy0 : 4 * y ^ 2 ≠ 0 := by
      have h4 : (4 : L) = 2 * 2 := by norm_num
      rw [h4]
      refine mul_ne_zero (mul_ne_zero v.h2 v.h2) (pow_ne_zero 2 fun h => hSS ?_)
      exact (add_self_iff v.h2 hS0).mpr (by rw [hys, h])
    apply mul_right_cancel₀ hy0
    rw [h1, hr, hy]
  rcases (xc_eq_iff hSS hD).mp hx' with h | h
  · exact ⟨S, h⟩
  · exact ⟨-S, by rw [← neg_add, h, neg_neg]⟩

omit [Fintype G] [IsAlgClosed L] v in
theorem four_of_five : ∀ a b c d : Fin 5, a ≠ b → a ≠ c → a ≠ d → b ≠ c → b ≠ d → c ≠ d →
    (((1 : Fin 5) ∈ [a, b, c, d] ∧ (4 : Fin 5) ∈ [a, b, c, d]) ∨
      ((2 : Fin 5) ∈ [a, b, c, d] ∧ (3 : Fin 5) ∈ [a, b, c, d])) ∧
    (((1 : Fin 5) ∈ [a, b, c, d] ∧ (3 : Fin 5) ∈ [a, b, c, d]) ∨
      ((2 : Fin 5) ∈ [a, b, c, d] ∧ (4 : Fin 5) ∈ [a, b, c, d])) := by decide

/-- A half of `V + W` in general position. -/
theorem VD.good_half {V W : MPoint A} (Y : MPoint A) (hVW : ¬(V + V ∈ G ∧ W + W ∈ G)) :
    ∃ S : MPoint A, S + S = V + W ∧ V - S ∉ G ∧ Y - S ∉ G ∧ Y + S ∉ G ∧ Y + (V - S) ∉ G ∧ Y - (V - S) ∉ G := by
  obtain ⟨S, hS⟩ := v.exists_half (V + W)
  obtain ⟨T, U, hT, hU, hTU, hT2, hU2⟩ := v.two_tors
  by_contra hcon
  let β : Fin 5 → MPoint A := ![V, Y, -Y, V + Y, V - Y]
  have hex : ∀ R : MPoint A, R + R = V + W → ∃ j, R - β j ∈ G := by
    intro R hR
    by_contra hn
    apply hcon
    have hn' : ∀ j, R - β j ∉ G := fun j h => hn ⟨j, h⟩
    refine ⟨R, hR, fun h => hn' 0 ?_, fun h => hn' 1 ?_, fun h => hn' 2 ?_, fun h => hn' 3 ?_, fun h => hn' 4 ?_⟩
    · have := G.neg_mem h; rwa [neg_sub] at this
    · have := G.neg_mem h; rwa [neg_sub] at this
    · change R - -Y ∈ G; rwa [sub_neg_eq_add, add_comm]
    · have := G.neg_mem h
      have e : R - (V + Y) = -(Y + (V - R)) := by abel
      change R - (V + Y) ∈ G; rwa [e]
    · have e : R - (V - Y) = Y - (V - R) := by abel
      change R - (V - Y) ∈ G; rwa [e]
  have hdbl : ∀ D : MPoint A, D + D = 0 → S + D + (S + D) = V + W := fun D hD => by
    rw [add_add_add_comm, hD, add_zero, hS]
  have hTU2 : T + U + (T + U) = 0 := by rw [add_add_add_comm, hT2, hU2, add_zero]
  obtain ⟨j0, h0⟩ := hex S hS
  obtain ⟨j1, h1⟩ := hex _ (hdbl T hT2)
  obtain ⟨j2, h2⟩ := hex _ (hdbl U hU2)
  obtain ⟨j3, h3⟩ := hex _ (hdbl (T + U) hTU2)
  have hne : ∀ {D E : MPoint A} {i j : Fin 5}, D - β i ∈ G → E - β j ∈ G → E - D ∉ G → i ≠ j := by
    intro D E i j hD hE hDE hij
    apply hDE
    rw [← hij] at hE
    have := G.sub_mem hE hD
    rwa [sub_sub_sub_cancel_right] at this
  have hTneg : T = -T := eq_neg_of_add_eq_zero_left hT2
  have n01 := hne h0 h1 (by rwa [add_sub_cancel_left])
  have n02 := hne h0 h2 (by rwa [add_sub_cancel_left])
  have n03 := hne h0 h3 (by rwa [add_sub_cancel_left])
  have n12 := hne h1 h2 (by
    have : S + U - (S + T) = T + U := by rw [add_sub_add_left_eq_sub, sub_eq_add_neg, ← hTneg, add_comm]
    rwa [this])
  have n13 := hne h1 h3 (by
    have : S + (T + U) - (S + T) = U := by abel
    rwa [this])
  have n23 := hne h2 h3 (by
    have : S + (T + U) - (S + U) = T := by abel
    rwa [this])
  have hit : ∀ j, j ∈ [j0, j1, j2, j3] → V + W - (β j + β j) ∈ G := by
    intro j hj
    have key : ∀ R : MPoint A, R + R = V + W → R - β j ∈ G → V + W - (β j + β j) ∈ G := by
      intro R hR h
      have := G.add_mem h h
      rwa [← add_sub_add_comm, hR] at this
    simp only [List.mem_cons, List.not_mem_nil, or_false] at hj
    rcases hj with rfl | rfl | rfl | rfl
    · exact key _ hS h0
    · exact key _ (hdbl T hT2) h1
    · exact key _ (hdbl U hU2) h2
    · exact key _ (hdbl _ hTU2) h3
  obtain ⟨c1, c2⟩ := four_of_five j0 j1 j2 j3 n01 n02 n03 n12 n13 n23
  have b1 : β 1 = Y := rfl
  have b2 : β 2 = -Y := rfl
  have b3 : β 3 = V + Y := rfl
  have b4 : β 4 = V - Y := rfl
  apply hVW
  constructor
  · rcases c2 with ⟨a, b⟩ | ⟨a, b⟩
    · have a := hit _ a
      have b := hit _ b
      rw [b1] at a
      rw [b3] at b
      have := G.sub_mem a b
      have e : V + W - (Y + Y) - (V + W - (V + Y + (V + Y))) = V + V := by abel
      rwa [e] at this
    · have a := hit _ a
      have b := hit _ b
      rw [b2] at a
      rw [b4] at b
      have := G.sub_mem a b
      have e : V + W - (-Y + -Y) - (V + W - (V - Y + (V - Y))) = V + V := by abel
      rwa [e] at this
  · rcases c1 with ⟨a, b⟩ | ⟨a, b⟩
    · have a := hit _ a
      have b := hit _ b
      rw [b1] at a
      rw [b4] at b
      have := G.add_mem a b
      have e : V + W - (Y + Y) + (V + W - (V - Y + (V - Y))) = W + W := by abel
      rwa [e] at this
    · have a := hit _ a
      have b := hit _ b
      rw [b2] at a
      rw [b3] at b
      have := G.add_mem a b
      have e : V + W - (-Y + -Y) + (V + W - (V + Y + (V + Y))) = W + W := by abel
      rwa [e] at this

/-- The quotient of lines of the images. -/
theorem VD.star {d : Nat} {e : Nat → G} (hH : IsHalf G d e) {A' : L} {φ : MPoint A →+ MPoint A'}
    (hker : ∀ Q, φ Q = 0 ↔ Q ∈ G) {k : L} (hφ : ∀ Q, Q ∉ G → xc (φ Q) = fx G Q ∧ yc (φ Q) = k * fy G Q)
    {V W Y : MPoint A} (hVW : ¬(V + V ∈ G ∧ W + W ∈ G)) (h1 : V ∉ G) (h2 : W ∉ G) (h3 : V + W ∉ G)
    (h4 : Y ∉ G) (h5 : Y - V ∉ G) (h6 : Y - W ∉ G) (h7 : Y - (V + W) ∉ G) (h8 : Y + V ∉ G) (h9 : Y + W ∉ G)
    (h10 : Y + (V + W) ∉ G) :
    gv (φ V) (φ W) (φ Y) * (px G * 2 ^ Fintype.card G * (hc d e (xc V) *
        hc d e (xc W) * (hc d e (xc Y) * hc d e (xc (Y - (V + W)))))) =
      2 * k * muc d e * (hc d e (xc (V + W)) * (hc d e (xc (Y - V)) * hc d e (xc (Y - W)))) *
        gv V W Y ^ Fintype.card G := by
  obtain ⟨S, hS, g1, g2, g3, g4, g5⟩ := v.good_half Y hVW
  obtain ⟨B, hB⟩ : ∃ B, B = V - S := ⟨_, rfl⟩
  obtain ⟨C, hC⟩ : ∃ C, C = Y - S := ⟨_, rfl⟩
  have eV : V = S + B := by rw [hB]; abel
  have eW : W = S - B := by rw [hB, ← sub_eq_zero]; calc _ = V + W - (S + S) := by abel
                                _ = 0 := by rw [hS, sub_self]
  have eY : Y = S + C := by rw [hC]; abel
  rw [← hB] at g1 g4 g5
  rw [← hC] at g2
  rw [← hS] at h3 h7 h10 ⊢
  subst eV eW eY
  have e1 : S + C - (S + B) = C - B := by abel
  have e2 : S + C - (S - B) = C + B := by abel
  have e3 : S + C - (S + S) = C - S := by abel
  rw [e1] at h5 ⊢
  rw [e2] at h6 ⊢
  rw [e3] at h7 ⊢
  rw [mul_comm (hc d e (xc (C - B)))]
  exact star_half hH v hker hφ g1 g2 h3 h1 h2 h4 h7 h6 h5 g3 h10 h8 h9 g4 g5

omit [IsAlgClosed L] v [Fintype G] in
/-- A cyclic group has at most one element of order two. -/
theorem two_tors_unique {P V W : MPoint A} (hP : 0 < addOrderOf P) (hV : V ∈ AddSubgroup.zmultiples P)
    (hW : W ∈ AddSubgroup.zmultiples P) (h1 : V + V = 0) (h2 : W + W = 0) (hV0 : V ≠ 0) (hW0 : W ≠ 0) :
    V + W = 0 := by
  have hfin : Finite (AddSubgroup.zmultiples P) := finite_zmultiples.mpr (addOrderOf_pos_iff.mp hP)
  let := Fintype.ofFinite (AddSubgroup.zmultiples P)
  have hc := IsAddCyclic.card_nsmul_eq_zero_le (α := AddSubgroup.zmultiples P) (n := 2) (by norm_num)
  by_contra hn
  have hVW : V ≠ W := by rintro rfl; exact hn h1
  have hsub : ({0, ⟨V, hV⟩, ⟨W, hW⟩} : Finset (AddSubgroup.zmultiples P)) ⊆
      Finset.univ.filter fun a => 2 • a = 0 := by
    intro x hx
    simp only [Finset.mem_insert, Finset.mem_singleton] at hx
    rw [Finset.mem_filter]
    refine ⟨Finset.mem_univ _, ?_⟩
    rcases hx with rfl | rfl | rfl
    · simp
    · rw [two_nsmul]; exact Subtype.ext h1
    · rw [two_nsmul]; exact Subtype.ext h2
  have h3 := Finset.card_le_card hsub
  rw [Finset.card_insert_of_notMem (by
      simp only [Finset.mem_insert, Finset.mem_singleton, not_or]
      exact ⟨fun h => hV0 (congrArg Subtype.val h).symm, fun h => hW0 (congrArg Subtype.val h).symm⟩),
    Finset.card_insert_of_notMem (by
      rw [Finset.mem_singleton]; exact fun h => hVW (congrArg Subtype.val h)), Finset.card_singleton] at h3
  omega

/-- The factor relating the functions of Miller before and after the isogeny. -/
noncomputable def theta (d : Nat) (e : Nat → G) (κ : L) (Y V : MPoint A) : L :=
  if V = 0 then 1 else κ * hc d e (xc (Y - V)) / (hc d e (xc Y) * hc d e (xc V))

omit v [IsAlgClosed L] [Fintype G] in
theorem theta_symm {d : Nat} {e : Nat → G} {κ : L} {Y V : MPoint A} (hY : Y ≠ 0) (hV : V ≠ 0) :
    theta d e κ Y V = theta d e κ V Y := by
  unfold theta
  rw [if_neg hY, if_neg hV, ← neg_sub V Y, xc_neg, mul_comm (hc d e (xc Y))]

/-- What an isogeny needs for the pairing. -/
structure VPhi {A' : L} (φ : MPoint A →+ MPoint A') (d : Nat) (e : Nat → G) (k : L) : Prop where
  half : IsHalf G d e
  ker : ∀ Q, φ Q = 0 ↔ Q ∈ G
  map : ∀ Q, Q ∉ G → xc (φ Q) = fx G Q ∧ yc (φ Q) = k * fy G Q
  k2 : k ^ 2 * py G ^ 2 = px G ^ 3

/-- The constant of the isogeny at infinity. -/
noncomputable def kap (d : Nat) (e : Nat → G) (k : L) : L :=
  2 * k * muc d e / (px G * 2 ^ Fintype.card G)

variable {A' : L} {φ : MPoint A →+ MPoint A'} {d : Nat} {e : Nat → G} {k : L} (w : VPhi φ d e k)
include w

theorem VD.kap_sq : kap d e k ^ 2 = px G := by
  have hm : muc d e ^ 2 * 4 = 4 ^ Fintype.card G * py G ^ 2 := by
    unfold muc py
    rw [w.half.2, half_card w.half, pow_succ (4 : L), pow_mul, ← Finset.prod_pow, ← Finset.prod_pow]
    have : ((4 : L) ^ 2) ^ d = ∏ i ∈ Finset.range d, (4 : L) ^ 2 := by rw [Finset.prod_const, Finset.card_range]
    rw [this, mul_right_comm, ← Finset.prod_mul_distrib]
    congr 1
    refine Finset.prod_congr rfl fun i _ => ?_
    rw [NegMemClass.coe_neg, yc_neg]; ring
  have h2 : ((2 : L) ^ Fintype.card G) ^ 2 = 4 ^ Fintype.card G := by
    rw [← pow_mul, mul_comm, pow_mul]; norm_num
  have hp := v.px_ne
  have h4 : (4 : L) ^ Fintype.card G ≠ 0 := by rw [← h2]; exact pow_ne_zero _ (pow_ne_zero _ v.h2)
  unfold kap
  rw [div_pow, mul_pow (px G), h2, div_eq_iff (mul_ne_zero (pow_ne_zero _ hp) h4)]
  linear_combination k ^ 2 * hm + 4 ^ Fintype.card G * w.k2

theorem VD.star_theta {P V W Y : MPoint A} (hP : 0 < addOrderOf P) (hV : V ∈ AddSubgroup.zmultiples P)
    (hW : W ∈ AddSubgroup.zmultiples P) (hG : ∀ R ∈ AddSubgroup.zmultiples P, R ∈ G → R = 0)
    (hY : ∀ R ∈ AddSubgroup.zmultiples P, Y - R ∉ G) :
    gv (φ V) (φ W) (φ Y) * theta d e (kap d e k) Y (V + W) =
      gv V W Y ^ Fintype.card G * (theta d e (kap d e k) Y V * theta d e (kap d e k) Y W) := by
  have hVW := AddSubgroup.add_mem _ hV hW
  have hY0 : Y ∉ G := by simpa using hY 0 (AddSubgroup.zero_mem _)
  have hY' : ∀ R ∈ AddSubgroup.zmultiples P, Y + R ∉ G := fun R hR => by
    have := hY (-R) (AddSubgroup.neg_mem _ hR)
    rwa [sub_neg_eq_add] at this
  have den : ∀ R ∈ AddSubgroup.zmultiples P, evalPt Y (denC R) ≠ 0 := fun R hR =>
    denC_eval_ne (ne_of_not_mem hY0) (sub_ne_zero.mp (ne_of_not_mem (hY R hR)))
      (fun h => ne_of_not_mem (hY' R hR) (by rw [h, neg_add_cancel]))
  have n : ∀ {Q : MPoint A}, Q ∉ G → φ Q ≠ 0 := fun hQ h => hQ ((w.ker _).mp h)
  have den' : ∀ R ∈ AddSubgroup.zmultiples P, evalPt (φ Y) (denC (φ R)) ≠ 0 := fun R hR =>
    denC_eval_ne (n hY0) (fun h => n (hY R hR) (by rw [map_sub, h, sub_self]))
      (fun h => n (hY' R hR) (by rw [map_add, h, neg_add_cancel]))
  by_cases hV0 : V = 0
  · subst hV0
    have : theta d e (kap d e k) Y 0 = 1 := if_pos rfl
    rw [this, map_zero, gv_zero_left (den' W hW), gv_zero_left (den W hW), zero_add, one_pow, one_mul,
      one_mul]
  by_cases hW0 : W = 0
  · subst hW0
    have : theta d e (kap d e k) Y 0 = 1 := if_pos rfl
    rw [this, map_zero, gv_zero_right (den' V hV), gv_zero_right (den V hV), add_zero, one_pow, mul_one]
  have hVG : V ∉ G := fun h => hV0 (hG V hV h)
  have hWG : W ∉ G := fun h => hW0 (hG W hW h)
  have cV := hc_ne w.half hVG
  have cW := hc_ne w.half hWG
  have cY := hc_ne w.half hY0
  by_cases hVW0 : V + W = 0
  · have eW : W = -V := eq_neg_of_add_eq_zero_right hVW0
    subst eW
    have t0 : theta d e (kap d e k) Y (V + -V) = 1 := if_pos hVW0
    have d1 := fx_diff w.half v hVG hY0 (hY' V hV) (hY V hV)
    rw [t0, map_neg, gv_opp (n hVG) (n hY0), gv_opp hV0 (ne_of_not_mem hY0), (w.map _ hY0).1, (w.map _ hVG).1]
    unfold theta
    rw [if_neg hV0, if_neg hW0, sub_neg_eq_add, xc_neg]
    have hk := v.kap_sq w
    generalize hc d e (xc Y) = a at *
    generalize hc d e (xc V) = b at *
    field_simp
    linear_combination (xc Y - xc V) ^ Fintype.card G * (-hc d e (xc (Y - V)) * hc d e (xc (Y + V))) * hk - d1
  · have hVWG : V + W ∉ G := fun h => hVW0 (hG _ hVW h)
    have hnot : ¬(V + V ∈ G ∧ W + W ∈ G) := fun ⟨h1, h2⟩ => hVW0 (two_tors_unique hP hV hW
      (hG _ (AddSubgroup.add_mem _ hV hV) h1) (hG _ (AddSubgroup.add_mem _ hW hW) h2) hV0 hW0)
    have st := v.star w.half w.ker w.map hnot hVG hWG hVWG hY0 (hY V hV) (hY W hW) (hY _ hVW) (hY' V hV) (hY' W hW)
      (hY' _ hVW)
    have cVW := hc_ne w.half hVWG
    have cYVW := hc_ne w.half (hY _ hVW)
    unfold theta
    rw [if_neg hV0, if_neg hW0, if_neg hVW0]
    have hp := v.px_ne
    have h2 : (2 : L) ^ Fintype.card G ≠ 0 := pow_ne_zero _ v.h2
    have hk : kap d e k * (px G * 2 ^ Fintype.card G) = 2 * k * muc d e :=
      div_mul_cancel₀ _ (mul_ne_zero hp h2)
    rw [← hk] at st
    have hpt := mul_ne_zero hp h2
    generalize px G * 2 ^ Fintype.card G = pt at *
    generalize kap d e k = κ at *
    have st' : gv (φ V) (φ W) (φ Y) * (hc d e (xc V) * hc d e (xc W) * (hc d e (xc Y) * hc d e (xc (Y - (V + W))))) =
      κ * (hc d e (xc (V + W)) * (hc d e (xc (Y - V)) * hc d e (xc (Y - W)))) * gv V W Y ^ Fintype.card G := by
      apply mul_left_cancel₀ hpt
      linear_combination st
    generalize hc d e (xc Y) = a at *
    generalize hc d e (xc V) = b at *
    generalize hc d e (xc W) = c at *
    generalize hc d e (xc (V + W)) = f at *
    field_simp
    linear_combination κ * st'

theorem VD.mil_theta {P Y : MPoint A} (hP : 0 < addOrderOf P)
    (hG : ∀ R ∈ AddSubgroup.zmultiples P, R ∈ G → R = 0) (hY : ∀ R ∈ AddSubgroup.zmultiples P, Y - R ∉ G)
    (n : Nat) (hn : 1 ≤ n) :
    mil (φ P) (φ Y) n * theta d e (kap d e k) Y (n • P) =
      mil P Y n ^ Fintype.card G * theta d e (kap d e k) Y P ^ n := by
  have hm : ∀ j : Nat, j • P ∈ AddSubgroup.zmultiples P := fun j =>
    AddSubgroup.nsmul_mem _ (AddSubgroup.mem_zmultiples P) j
  refine chain_induction (p := fun n => mil (φ P) (φ Y) n * theta d e (kap d e k) Y (n • P) =
      mil P Y n ^ Fintype.card G * theta d e (kap d e k) Y P ^ n) ?_ ?_ ?_ n hn
  · rw [mil_one, mil_one, one_nsmul, one_pow, pow_one]
  · intro j hj ih
    have st := v.star_theta w hP (hm j) (hm j) hG hY
    rw [← add_nsmul, ← two_mul, map_nsmul] at st
    rw [mil_even _ _ hj, mil_even _ _ hj, mul_assoc, st, mul_pow, mul_pow, pow_mul']
    linear_combination gv (j • P) (j • P) Y ^ Fintype.card G *
      (mil (φ P) (φ Y) j * theta d e (kap d e k) Y (j • P) +
        mil P Y j ^ Fintype.card G * theta d e (kap d e k) Y P ^ j) * ih
  · intro j hj ih
    have st := v.star_theta w hP (hm (2 * j)) (AddSubgroup.mem_zmultiples P) hG hY
    rw [← succ_nsmul, map_nsmul] at st
    rw [mil_odd _ _ hj, mil_odd _ _ hj, mul_assoc, st, mul_pow, pow_succ]
    linear_combination gv ((2 * j) • P) P Y ^ Fintype.card G * theta d e (kap d e k) Y P * ih

/-- The pairing of the images is the pairing raised to the degree. -/
theorem VD.weil {P Q : MPoint A} {n : Nat} (hn : 1 ≤ n) (hco : n.Coprime (Fintype.card G)) (h : ND P Q)
    (hP : n • P = 0) (hQ : n • Q = 0) : we n (φ P) (φ Q) = we n P Q ^ Fintype.card G := by
  have hG : ∀ R : MPoint A, n • R = 0 → R ∈ G → R = 0 := by
    intro R h1 h2
    have h3 : Fintype.card G • R = 0 := by
      have := card_nsmul_eq_zero (x := (⟨R, h2⟩ : G))
      exact congrArg Subtype.val this
    have h4 : addOrderOf R ∣ 1 := by
      rw [← hco]
      exact Nat.dvd_gcd (addOrderOf_dvd_of_nsmul_eq_zero h1) (addOrderOf_dvd_of_nsmul_eq_zero h3)
    exact AddMonoid.addOrderOf_eq_one_iff.mp (Nat.dvd_one.mp h4)
  have hz : ∀ {R S : MPoint A}, n • R = 0 → S ∈ AddSubgroup.zmultiples R → n • S = 0 := by
    rintro R S hR ⟨j, rfl⟩
    change n • j • R = 0
    rw [smul_comm, hR, smul_zero]
  have hY : ∀ {P Q : MPoint A}, n • P = 0 → n • Q = 0 → Q ∉ AddSubgroup.zmultiples P →
      ∀ R ∈ AddSubgroup.zmultiples P, Q - R ∉ G := by
    intro P Q hP hQ hPQ R hR hm
    have := hG _ (by rw [smul_sub, hQ, hz hP hR, sub_zero]) hm
    exact hPQ (sub_eq_zero.mp this ▸ hR)
  have hpos : ∀ {R : MPoint A}, n • R = 0 → 0 < addOrderOf R := fun hR =>
    addOrderOf_pos_iff.mpr (isOfFinAddOrder_iff_nsmul_eq_zero.mpr ⟨n, hn, hR⟩)
  have m1 := v.mil_theta w (hpos hP) (fun R hR => hG R (hz hP hR)) (hY hP hQ h.2) n hn
  have m2 := v.mil_theta w (hpos hQ) (fun R hR => hG R (hz hQ hR)) (hY hQ hP h.1) n hn
  have t0 : ∀ Y : MPoint A, theta d e (kap d e k) Y 0 = 1 := fun Y => if_pos rfl
  rw [hP, t0, mul_one] at m1
  rw [hQ, t0, mul_one, theta_symm h.ne_left h.ne_right] at m2
  have ht : theta d e (kap d e k) Q P ≠ 0 := by
    unfold theta
    rw [if_neg h.ne_left]
    have hk : kap d e k ≠ 0 := fun h0 => v.px_ne (by rw [← v.kap_sq w, h0]; exact zero_pow two_ne_zero)
    have hPG : P ∉ G := fun hm => h.ne_left (hG P hP hm)
    have hQG : Q ∉ G := fun hm => h.ne_right (hG Q hQ hm)
    exact div_ne_zero (mul_ne_zero hk (hc_ne w.half (hY hP hQ h.2 P (AddSubgroup.mem_zmultiples P))))
      (mul_ne_zero (hc_ne w.half hQG) (hc_ne w.half hPG))
  unfold we
  rw [m1, m2, div_pow, mul_pow, ← mul_assoc, mul_div_mul_right _ _ (pow_ne_zero n ht), ← pow_mul,
    mul_comm n, pow_mul, v.hodd.neg_one_pow]

end
end Festa
