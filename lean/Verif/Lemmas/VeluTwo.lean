import Verif.Lemmas.VeluRel
/-! Points of order two and the image curve. -/
namespace Festa
open WeierstrassCurve.Affine
variable {L : Type*} [Field L] [DecidableEq L] {A : L}
variable {G : AddSubgroup (MPoint A)} [Fintype G]

theorem root_ne_zero {t : L} (ht : t ^ 2 + A * t + 1 = 0) : t ≠ 0 := by
  rintro rfl
  simp at ht

theorem root_inv {t : L} (ht : t ^ 2 + A * t + 1 = 0) : (t⁻¹) ^ 2 + A * t⁻¹ + 1 = 0 := by
  have := root_ne_zero ht
  field_simp
  linear_combination ht

theorem exists_two_tors (v : VD G) {t : L} (ht : t ^ 2 + A * t + 1 = 0) :
    ∃ T : MPoint A, xc T = t ∧ yc T = 0 ∧ T ≠ 0 ∧ T + T = 0 ∧ T ∉ G := by
  have hk := nonsing_of v.h2 v.hA (x := t) (y := 0) (by linear_combination (-t) * ht)
  have h0 : (.some t 0 hk : MPoint A) ≠ 0 := Point.some_ne_zero hk
  have hd : (.some t 0 hk : MPoint A) + .some t 0 hk = 0 := (add_self_iff v.h2 h0).mpr rfl
  exact ⟨.some t 0 hk, rfl, rfl, h0, hd, fun h => h0 (mem_of_dbl v.hodd h hd)⟩

/-- Translation by a point of order two. -/
theorem two_shift {t : L} (ht : t ^ 2 + A * t + 1 = 0) {T : MPoint A} (hx : xc T = t) (hy : yc T = 0)
    (hT : T ∉ G) {g : G} (hg : g ∈ gs G) : xc (T + g.1) * (t - xc g.1) = 1 - t * xc g.1 := by
  have hne := xc_ne_gs hT hg
  have h := xc_add (ne_of_not_mem hT) (gs_ne hg) hne
  rw [hy, hx] at h
  rw [hx] at hne
  apply mul_right_cancel₀ (sub_ne_zero.mpr hne)
  unfold sfun at h
  linear_combination h + 2 * xc g.1 * ht

variable (v : VD G)
include v

theorem VD.ns_one : ns G (1 : L) = cs G 1 := by
  unfold ns cs
  rw [one_mul, ← prod_gs_neg_one v.hodd]
  exact Finset.prod_congr rfl fun g _ => by ring

theorem VD.ns_neg_one : ns G (-1 : L) = -cs G (-1) := by
  unfold ns cs
  rw [neg_one_mul]
  congr 1
  exact Finset.prod_congr rfl fun g _ => by ring

variable [IsAlgClosed L]

/-- Images of the points of order two other than `(0, 0)`. -/
theorem VD.two_image {t : L} (ht : t ^ 2 + A * t + 1 = 0) {T S : MPoint A} (hT : T ∉ G) (hS : S ∉ G)
    (hTx : xc T = t) (hSx : xc S = t⁻¹) : fx G T * fx G S = 1 := by
  have h0 := root_ne_zero ht
  have f1 := v.formula hT
  have f2 := v.formula hS
  rw [hTx] at f1
  rw [hSx] at f2
  have c1 := cs_ne hT
  have c2 := cs_ne hS
  rw [hTx] at c1
  rw [hSx] at c2
  have i1 := v.cs_inv h0
  have i2 := v.ns_inv h0
  have ht' : t ^ Fintype.card G ≠ 0 := pow_ne_zero _ h0
  apply mul_right_cancel₀ (mul_ne_zero (mul_ne_zero c1 c2) ht')
  rw [one_mul]
  calc fx G T * fx G S * (cs G t * cs G t⁻¹ * t ^ Fintype.card G) =
      (fx G T * cs G t) * (t ^ Fintype.card G * (fx G S * cs G t⁻¹)) := by ring
    _ = _ := by rw [f1, f2, i2, ← i1]; ring

/-- Product of the factors `x - t` of the images of sum and difference. -/
theorem VD.rel_two' {t : L} (ht : t ^ 2 + A * t + 1 = 0) {T : MPoint A} (hT : T ∉ G) (hTx : xc T = t)
    (hTy : yc T = 0) {Q R : MPoint A} (hQ : Q ∉ G) (hR : R ∉ G) (h1 : Q + R ∉ G) (h3 : Q - R ∉ G)
    (hne : xc R ≠ t) :
    (fx G T - fx G (Q + R)) * (fx G T - fx G (Q - R)) * (fx G Q - fx G R) ^ 2 =
      (fx G Q * fx G R - fx G T * (fx G Q + fx G R) + 1) ^ 2 := by
  have h0 := root_ne_zero ht
  obtain ⟨S, hSx, hSy, hS0, -, hS⟩ := exists_two_tors v (root_inv ht)
  have hTS := v.two_image ht hT hS hTx hSx
  have hr : xc R - t ≠ 0 := sub_ne_zero.mpr hne
  have hp := v.px_ne
  have cT := cs_ne hT
  have cR := cs_ne hR
  have hl : (xc R - t) ^ Fintype.card G ≠ 0 := pow_ne_zero _ hr
  -- values at `s = (t r - 1) / (r - t)`
  set s : L := (t * xc R - 1) / (xc R - t) with hs
  have hs' : s * (xc R - t) = t * xc R - 1 := div_mul_cancel₀ _ hr
  have A1 : px G * ((xc R - t) ^ Fintype.card G * cs G s) =
      cs G t * (cs G (xc R) * (fx G R - fx G T)) := by
    rw [← v.norm_pt hT hR, prod_split, ZeroMemClass.coe_zero, add_zero, hTx, ← card_gs, pow_succ',
      ← Finset.prod_const, mul_assoc, mul_left_comm (cs G t), mul_left_comm (cs G t)]
    congr 2
    unfold cs
    rw [← Finset.prod_mul_distrib, ← Finset.prod_mul_distrib]
    refine Finset.prod_congr rfl fun g hg => ?_
    have := two_shift ht hTx hTy hT hg
    linear_combination hs' + this
  have A2 : px G * ((xc R - t) ^ Fintype.card G * ns G s) =
      cs G t * (cs G (xc R) * (fx G T * fx G R - 1)) := by
    have e : t ^ Fintype.card G * cs G t⁻¹ * (cs G (xc R) * (fx G R - fx G S)) =
        cs G t * (cs G (xc R) * (fx G T * fx G R - 1)) := by
      rw [v.cs_inv h0]
      have := v.formula hT
      rw [hTx] at this
      rw [← this]
      linear_combination (-cs G t * cs G (xc R)) * hTS
    rw [← e, ← v.norm_pt hS hR, prod_split, ZeroMemClass.coe_zero, add_zero, hSx, ← card_gs, pow_succ',
      pow_succ', ← Finset.prod_const, ← Finset.prod_const]
    unfold ns cs
    have e1 : t * (xc R - t⁻¹) = s * (xc R - t) := by rw [hs', mul_sub, mul_inv_cancel₀ h0]
    have e2 : (∏ g ∈ gs G, (xc R - t)) * ∏ g ∈ gs G, (s * xc g.1 - 1) =
        (∏ g ∈ gs G, t) * (∏ g ∈ gs G, (t⁻¹ - xc g.1)) * ∏ g ∈ gs G, (xc R - xc (S + g.1)) := by
      rw [← prod_gs_neg_one v.hodd (fun g : G => s * xc g.1 - 1), ← Finset.prod_mul_distrib,
        ← Finset.prod_mul_distrib, ← Finset.prod_mul_distrib]
      refine Finset.prod_congr rfl fun g hg => ?_
      have := two_shift (root_inv ht) hSx hSy hS hg
      have hi : t * t⁻¹ = 1 := mul_inv_cancel₀ h0
      linear_combination -xc g.1 * hs' + t * this - (xc R + xc g.1) * hi
    linear_combination (px G * (s * (xc R - t))) * e2 - px G * (∏ g ∈ gs G, t) *
      (∏ g ∈ gs G, (t⁻¹ - xc g.1)) * (∏ g ∈ gs G, (xc R - xc (S + g.1))) * e1
  -- the product over the orbit
  have hB : px G ^ 2 * ∏ g : G, (xc (Q + g.1) * xc R - t * (xc (Q + g.1) + xc R) + 1) =
      cs G t * cs G (xc R) * (fx G Q * fx G R - fx G T * (fx G Q + fx G R) + 1) := by
    have e : ∏ g : G, (xc (Q + g.1) * xc R - t * (xc (Q + g.1) + xc R) + 1) =
        -((xc R - t) ^ Fintype.card G * ∏ g : G, (s - xc (Q + g.1))) := by
      rw [← Finset.card_univ, ← Finset.prod_const, ← Finset.prod_mul_distrib, ← v.neg_prod]
      refine Finset.prod_congr rfl fun g _ => ?_
      linear_combination hs'
    have n := v.norm hQ s
    rw [e]
    linear_combination (-px G * (xc R - t) ^ Fintype.card G) * n - A2 + fx G Q * A1
  have h := v.orbit hQ hR h1 h3 t
  simp_rw [phi3_root ht] at h
  rw [Finset.prod_pow] at h
  have a1 := v.norm_pt h1 hT
  have a2 := v.norm_pt h3 hT
  have a3 := v.norm_pt' hQ hR
  rw [hTx] at a1 a2 cT
  generalize ∏ g : G, (xc (Q + g.1) - xc R) = u at *
  generalize ∏ g : G, (xc (Q + g.1) * xc R - t * (xc (Q + g.1) + xc R) + 1) = w at *
  generalize ∏ g : G, (t - xc (Q + R + g.1)) = m1 at *
  generalize ∏ g : G, (t - xc (Q - R + g.1)) = m2 at *
  generalize cs G (xc R) = cr at *
  generalize cs G t = ct at *
  generalize px G = p at *
  apply mul_left_cancel₀ (pow_ne_zero 2 (mul_ne_zero cT cR))
  calc (ct * cr) ^ 2 * ((fx G T - fx G (Q + R)) * (fx G T - fx G (Q - R)) * (fx G Q - fx G R) ^ 2) =
      (ct * (fx G T - fx G (Q + R))) * (ct * (fx G T - fx G (Q - R))) * (cr * (fx G Q - fx G R)) ^ 2 := by ring
    _ = p ^ 4 * (m1 * m2 * u ^ 2) := by rw [← a1, ← a2, ← a3]; ring
    _ = (p ^ 2 * w) ^ 2 := by rw [h]; ring
    _ = _ := by rw [hB]; ring

theorem VD.rel_two {t : L} (ht : t ^ 2 + A * t + 1 = 0) {T : MPoint A} (hT : T ∉ G) (hTx : xc T = t)
    (hTy : yc T = 0) {Q R : MPoint A} (hQ : Q ∉ G) (hR : R ∉ G) (h1 : Q + R ∉ G) (h3 : Q - R ∉ G) :
    (fx G T - fx G (Q + R)) * (fx G T - fx G (Q - R)) * (fx G Q - fx G R) ^ 2 =
      (fx G Q * fx G R - fx G T * (fx G Q + fx G R) + 1) ^ 2 := by
  by_cases hne : xc R = t
  · by_cases hne' : xc Q = t
    · exfalso
      rcases (xc_eq_iff (ne_of_not_mem hQ) (ne_of_not_mem hR)).mp (hne'.trans hne.symm) with e | e
      · exact h3 (by rw [e, sub_self]; exact G.zero_mem)
      · exact h1 (by rw [e, neg_add_cancel]; exact G.zero_mem)
    · have := v.rel_two' ht hT hTx hTy hR hQ (by rwa [add_comm])
        (fun h => h3 (by rw [← neg_sub]; exact G.neg_mem h)) hne'
      rw [add_comm R Q, ← neg_sub Q R, fx_neg] at this
      linear_combination this
  · exact v.rel_two' ht hT hTx hTy hQ hR h1 h3 hne

/-- The equation of the image curve. -/
theorem VD.rel_curve {t : L} (ht : t ^ 2 + A * t + 1 = 0) {T : MPoint A} (hT : T ∉ G) (hTx : xc T = t)
    {A' : L} (hA' : fx G T ^ 2 + A' * fx G T + 1 = 0) {Q : MPoint A} (hQ : Q ∉ G) :
    px G ^ 3 * fy G Q ^ 2 = py G ^ 2 * (fx G Q ^ 3 + A' * fx G Q ^ 2 + fx G Q) := by
  have h0 := root_ne_zero ht
  obtain ⟨S, hSx, hSy, hS0, -, hS⟩ := exists_two_tors v (root_inv ht)
  have hTS := v.two_image ht hT hS hTx hSx
  have hi : t * t⁻¹ = 1 := mul_inv_cancel₀ h0
  have hsum : t + t⁻¹ = -A := by
    apply mul_left_cancel₀ h0
    linear_combination ht + hi
  have e1 : fy G Q ^ 2 = fx G Q * ((∏ g : G, (t - xc (Q + g.1))) * ∏ g : G, (t⁻¹ - xc (Q + g.1))) := by
    unfold fx fy
    rw [← Finset.prod_pow, ← Finset.prod_mul_distrib, ← Finset.prod_mul_distrib]
    refine Finset.prod_congr rfl fun g _ => ?_
    rw [yc_sq (add_ne hQ g)]
    linear_combination (-xc (Q + g.1)) * hi + xc (Q + g.1) ^ 2 * hsum
  have e2 : px G * (cs G t * cs G t⁻¹) = py G ^ 2 := by
    unfold px py cs
    rw [← Finset.prod_pow, ← Finset.prod_mul_distrib, ← Finset.prod_mul_distrib]
    refine Finset.prod_congr rfl fun g hg => ?_
    rw [yc_sq (gs_ne hg)]
    linear_combination xc g.1 * hi - xc g.1 ^ 2 * hsum
  have n1 := v.norm_pt hQ hT
  have n2 := v.norm_pt hQ hS
  rw [hTx] at n1
  rw [hSx] at n2
  have hT0 : fx G T ≠ 0 := left_ne_zero_of_mul_eq_one hTS
  have hsum' : fx G T + fx G S = -A' := by
    apply mul_left_cancel₀ hT0
    linear_combination hA' + hTS
  rw [e1]
  generalize ∏ g : G, (t - xc (Q + g.1)) = m1 at *
  generalize ∏ g : G, (t⁻¹ - xc (Q + g.1)) = m2 at *
  calc px G ^ 3 * (fx G Q * (m1 * m2)) = px G * fx G Q * (px G * m1) * (px G * m2) := by ring
    _ = (px G * (cs G t * cs G t⁻¹)) * (fx G Q * ((fx G T - fx G Q) * (fx G S - fx G Q))) := by
        rw [n1, n2]; ring
    _ = _ := by
        rw [e2]
        linear_combination (py G ^ 2 * fx G Q) * hTS - (py G ^ 2 * fx G Q ^ 2) * hsum'

/-- Doubling. -/
theorem VD.rel_double {Q : MPoint A} (hQ : Q + Q ∉ G) :
    fx G (Q + Q) * (4 * (px G ^ 3 * fy G Q ^ 2)) = py G ^ 2 * (fx G Q ^ 2 - 1) ^ 2 := by
  have hQ0 : Q ∉ G := fun h => hQ (G.add_mem h h)
  have h4 : (4 : L) ^ (gs G).card ≠ 0 := pow_ne_zero _ (by
    have : (4 : L) = 2 * 2 := by norm_num
    rw [this]; exact mul_ne_zero v.h2 v.h2)
  have e1 : fx G (Q + Q) * (4 ^ (gs G).card * 4 * fy G Q ^ 2) =
      ((∏ g : G, (1 - xc (Q + g.1))) * ∏ g : G, (-1 - xc (Q + g.1))) ^ 2 := by
    unfold fx fy
    have e := prod_dbl v.hodd (fun g : G => xc (Q + Q + g.1))
    simp only [AddMemClass.coe_add] at e
    rw [← e, ← pow_succ, card_gs, ← Finset.card_univ, ← Finset.prod_const, ← Finset.prod_pow,
      ← Finset.prod_mul_distrib, ← Finset.prod_mul_distrib, ← Finset.prod_mul_distrib, ← Finset.prod_pow]
    refine Finset.prod_congr rfl fun g _ => ?_
    have hd : (Q + g.1) + (Q + g.1) ≠ 0 := fun h => hQ (by
      have : Q + Q = -(g.1 + g.1) := by
        rw [← sub_eq_zero, ← h]; abel
      rw [this]; exact G.neg_mem (G.add_mem g.2 g.2))
    have := xc_double v.h2 hd
    rw [show Q + g.1 + (Q + g.1) = Q + Q + (g.1 + g.1) by abel] at this
    linear_combination this
  have e2 : (cs G (1 : L) * cs G (-1)) ^ 2 = 4 ^ (gs G).card * px G * py G ^ 2 := by
    have e := prod_gs_dbl v.hodd (fun g : G => xc g.1)
    simp only [AddMemClass.coe_add] at e
    unfold cs px py
    rw [← e, ← Finset.prod_const, ← Finset.prod_pow, ← Finset.prod_mul_distrib, ← Finset.prod_mul_distrib,
      ← Finset.prod_mul_distrib, ← Finset.prod_pow]
    refine Finset.prod_congr rfl fun g hg => ?_
    have hd : g.1 + g.1 ≠ 0 := fun h => dbl_ne v.hodd (mem_gs.mp hg) (Subtype.ext h)
    have := xc_double v.h2 hd
    linear_combination -this
  have n1 := v.norm hQ0 1
  have n2 := v.norm hQ0 (-1)
  rw [v.ns_one] at n1
  rw [v.ns_neg_one] at n2
  generalize ∏ g : G, (1 - xc (Q + g.1)) = m1 at *
  generalize ∏ g : G, (-1 - xc (Q + g.1)) = m2 at *
  have hp := v.px_ne
  apply mul_left_cancel₀ (mul_ne_zero h4 hp)
  calc (4 : L) ^ (gs G).card * px G * (fx G (Q + Q) * (4 * (px G ^ 3 * fy G Q ^ 2))) =
      px G ^ 4 * (fx G (Q + Q) * (4 ^ (gs G).card * 4 * fy G Q ^ 2)) := by ring
    _ = ((px G * m1) * (px G * m2)) ^ 2 := by rw [e1]; ring
    _ = (cs G (1 : L) * cs G (-1)) ^ 2 * (fx G Q ^ 2 - 1) ^ 2 := by rw [n1, n2]; ring
    _ = _ := by rw [e2]; ring

/-- The two relations behind the Edwards form of the codomain. -/
theorem VD.edwards {t : L} (ht : t ^ 2 + A * t + 1 = 0) {T : MPoint A} (hT : T ∉ G) (hTx : xc T = t)
    (hTy : yc T = 0) :
    px G * ((1 - t) ^ Fintype.card G * cs G (-1)) = cs G t * cs G 1 * (1 - fx G T) ∧
    px G * ((1 + t) ^ Fintype.card G * cs G 1) = cs G t * cs G (-1) * (1 + fx G T) := by
  have n1 := v.norm hT 1
  have n2 := v.norm hT (-1)
  rw [v.ns_one] at n1
  rw [v.ns_neg_one] at n2
  rw [prod_split, ZeroMemClass.coe_zero, add_zero, hTx] at n1 n2
  have ev : ∀ c : L, ∏ _g ∈ gs G, -c = ∏ _g ∈ gs G, c := fun c => prod_gs_neg_one v.hodd _
  have k1 : (∏ g ∈ gs G, (1 - xc (T + g.1))) * cs G t = (∏ g ∈ gs G, (1 - t)) * cs G (-1) := by
    rw [← ev (1 - t)]
    unfold cs
    rw [← prod_gs_neg_one v.hodd (fun g : G => -1 - xc g.1)]
    rw [← Finset.prod_mul_distrib, ← Finset.prod_mul_distrib]
    refine Finset.prod_congr rfl fun g hg => ?_
    have := two_shift ht hTx hTy hT hg
    linear_combination -this
  have k2 : (∏ g ∈ gs G, (-1 - xc (T + g.1))) * cs G t = (∏ g ∈ gs G, (1 + t)) * cs G 1 := by
    unfold cs
    rw [← prod_gs_neg_one v.hodd (fun g : G => 1 - xc g.1)]
    rw [← Finset.prod_mul_distrib, ← Finset.prod_mul_distrib]
    refine Finset.prod_congr rfl fun g hg => ?_
    have := two_shift ht hTx hTy hT hg
    linear_combination -this
  rw [← card_gs, pow_succ', pow_succ', ← Finset.prod_const, ← Finset.prod_const]
  constructor
  · linear_combination cs G t * n1 - px G * (1 - t) * k1
  · linear_combination -cs G t * n2 - px G * (1 + t) * k2

omit [IsAlgClosed L] in
theorem VD.cs_one_ne : cs G (1 : L) ≠ 0 ∧ cs G (-1 : L) ≠ 0 := by
  have h : ∀ g ∈ gs G, xc g.1 ^ 2 ≠ 1 := by
    intro g hg h
    have hm : (g + g : G) ∈ gs G := mem_gs.mpr (dbl_ne v.hodd (mem_gs.mp hg))
    have hd := gs_ne hm
    have := xc_double v.h2 hd
    rw [h, sub_self] at this
    have h4 : (4 : L) ≠ 0 := by
      have : (4 : L) = 2 * 2 := by norm_num
      rw [this]; exact mul_ne_zero v.h2 v.h2
    exact mul_ne_zero (gs_xc_ne v.h2 v.hodd hm) (mul_ne_zero h4 (pow_ne_zero 2 (gs_yc_ne v.h2 v.hodd hg)))
      (by rw [AddMemClass.coe_add, this]; ring)
  constructor <;> refine Finset.prod_ne_zero_iff.mpr fun g hg e => h g hg ?_
  · rw [← sub_eq_zero.mp e]; ring
  · rw [← sub_eq_zero.mp e]; ring

end Festa
