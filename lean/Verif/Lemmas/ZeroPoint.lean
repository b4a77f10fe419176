import Verif.Lemmas.FqCard
import Verif.Lemmas.SchemeGroup
import Verif.Lemmas.Divisible
/-! The point `(0, 0)`: the isogenies of the code keep it, and what lies above it has a square abscissa. -/
namespace Festa
open WeierstrassCurve.Affine

section
variable {K : Type*} [Field K] [DecidableEq K]

omit [DecidableEq K] in
theorem zero_y {A : K} {Q : MPoint A} (hx : xc Q = 0) : yc Q = 0 := by
  rcases Q with _ | ⟨x, y, k⟩
  · rfl
  · have hx : x = 0 := hx
    have := curve_eq k
    rw [hx] at this
    exact mul_self_eq_zero.mp (this.trans (by ring))

omit [DecidableEq K] in
theorem zero_unique {A : K} {Q R : MPoint A} (hQ : Q ≠ 0) (hR : R ≠ 0) (hx : xc Q = 0) (hx' : xc R = 0) : Q = R :=
  pt_ext hQ hR (by rw [hx, hx']) (by rw [zero_y hx, zero_y hx'])

theorem zero_two {A : K} (h2 : (2 : K) ≠ 0) {Q : MPoint A} (hx : xc Q = 0) : 2 • Q = 0 := by
  by_cases h : Q = 0
  · rw [h, nsmul_zero]
  · rw [two_nsmul]
    exact (add_self_iff h2 h).mpr (zero_y hx)

omit [DecidableEq K] in
theorem exists_zero (E : Crv K) (hE : E.Good) : ∃ Q : MPoint E.A, Q ≠ 0 ∧ xc Q = 0 :=
  ⟨.some 0 0 (nonsing_of hE.two hE.disc (by ring)), Point.some_ne_zero _, rfl⟩

/-- Translation by `(0, 0)`. -/
theorem add_zeroPt {A : K} {R T : MPoint A} (hT : T ≠ 0) (hx : xc T = 0) (hR : xc R ≠ 0) :
    xc (R + T) * xc R = 1 ∧ yc (R + T) * xc R ^ 2 = -yc R := by
  rcases R with _ | ⟨x, y, k⟩
  · exact absurd rfl hR
  rcases T with _ | ⟨x', y', k'⟩
  · exact absurd rfl hT
  have hy : y' = 0 := zero_y hx
  have hx : x' = 0 := hx
  subst hx; subst hy
  have hR' : x ≠ 0 := hR
  obtain ⟨h3, e3⟩ := add_gen (h1 := k) (h2 := k') (l := y / x) hR' (by field_simp; ring)
  rw [e3]
  have c := curve_eq k
  clear e3
  simp only [xc, yc]
  have h1 : y / x * x = y := div_mul_cancel₀ _ hR'
  generalize y / x = l at h1
  have c : l * l * x = x * x + A * x + 1 := mul_right_cancel₀ hR' (by linear_combination c + (l * x + y) * h1)
  constructor
  · linear_combination c
  · linear_combination (-l * x) * c + (x ^ 2 - 1) * h1

variable [RootOps K]

theorem IsStep.zero_x {f : KIso K} {φ : MPoint f.domain.A →+ MPoint f.codomain.A} (hf : IsStep f φ)
    (hodd : f.degree.toNat % 2 = 1) {Q : MPoint f.domain.A} (hQ : Q ≠ 0) (hx : xc Q = 0) : φ Q ≠ 0 ∧ xc (φ Q) = 0 := by
  have h2 := hf.dom.two
  have hc : (2 : Nat).Coprime f.degree.toNat := by rw [Nat.coprime_two_left, Nat.odd_iff]; exact hodd
  obtain ⟨R, -, ho, hk, hf, -⟩ := hf.ker
  have hm : Q ∉ AddSubgroup.zmultiples R := fun h => hQ (ker_coprime ho hc (zero_two h2 hx) h)
  refine ⟨fun h => hm ((hk Q).mp h), ?_⟩
  have := hf Q hm
  rw [hx, zero_mul, mul_eq_zero] at this
  refine this.resolve_right (pow_ne_zero 2 (Finset.prod_ne_zero_iff.mpr fun i hi => ?_))
  rw [zero_sub, neg_ne_zero]
  intro h0
  have hi := Finset.mem_range.mp hi
  have e : (i + 1) • R = 0 := ker_coprime ho hc (zero_two h2 h0) (AddSubgroup.nsmul_mem _ (AddSubgroup.mem_zmultiples R) _)
  have := Nat.le_of_dvd (by omega) (addOrderOf_dvd_of_nsmul_eq_zero e)
  omega

theorem IsChain.zero_x {E E' : Crv K} {L : List (KIso K)} {φ : MPoint E.A →+ MPoint E'.A} (h : IsChain E L E' φ)
    (hodd : chainDegree L % 2 = 1) {Q : MPoint E.A} (hQ : Q ≠ 0) (hx : xc Q = 0) : φ Q ≠ 0 ∧ xc (φ Q) = 0 := by
  induction h with
  | nil _ => exact ⟨hQ, hx⟩
  | @cons f φ fs E' ψ hf hch ih =>
    have e : chainDegree (f :: fs) = f.degree.toNat * chainDegree fs := by simp [chainDegree]
    rw [e] at hodd
    have ho := Nat.odd_mul.mp (Nat.odd_iff.mpr hodd)
    obtain ⟨a, b⟩ := hf.zero_x (Nat.odd_iff.mp ho.1) hQ hx
    exact ih (Nat.odd_iff.mp ho.2) a b

/-- The isogenies of the scheme send `(0, 0)` to `(0, 0)`. -/
theorem IsIsog.zero_x {E E' : Crv K} {φ : MPoint E.A →+ MPoint E'.A} {d : Nat} (h : IsIsog φ d) (hd : d % 2 = 1)
    {Q : MPoint E.A} (hQ : Q ≠ 0) (hx : xc Q = 0) : φ Q ≠ 0 ∧ xc (φ Q) = 0 := by
  obtain ⟨L, ψ, h, rfl, rfl | rfl⟩ := h
  · exact h.zero_x hd hQ hx
  · obtain ⟨a, b⟩ := h.zero_x hd hQ hx
    exact ⟨by simpa using a, by rw [AddMonoidHom.neg_apply, xc_neg]; exact b⟩

/-- And only points above `(0, 0)`, among those of order two. -/
theorem IsIsog.zero_x_of {E E' : Crv K} {φ : MPoint E.A →+ MPoint E'.A} {d : Nat} (h : IsIsog φ d) (hd : d % 2 = 1)
    {Q : MPoint E.A} (hQ : Q ≠ 0) (h2 : 2 • Q = 0) (hx : xc (φ Q) = 0) : xc Q = 0 := by
  have hc : (2 : Nat).Coprime d := by rw [Nat.coprime_two_left, Nat.odd_iff]; exact hd
  have inj := h.inj (n := 2) (by norm_num) hd hc
  obtain ⟨T, hT, hTx⟩ := exists_zero E h.good.1
  obtain ⟨a, b⟩ := h.zero_x hd hT hTx
  have e : φ Q = φ T := zero_unique (fun h0 => hQ (inj Q h2 h0)) a hx b
  have : Q - T = 0 := inj _ (by rw [nsmul_sub, h2, zero_two h.good.1.two hTx, sub_zero]) (by rw [map_sub, e, sub_self])
  rw [sub_eq_zero.mp this]
  exact hTx

end

section
variable {K : Type*} [Field K] [DecidableEq K] {p : Nat} [Fact p.Prime] [CharP K p] [Fintype K]

/-- A point `P` with `(p+1)/2 P = (0, 0)` has a square abscissa. -/
theorem FrobNeg.square {A : K} (hc : Fintype.card K = p ^ 2) (h2 : (2 : K) ≠ 0) (hA : A * A ≠ 4) (hF : FrobNeg p A) {k : Nat}
    (hk : p + 1 = k * 2) {P : MPoint A} (h0 : k • P ≠ 0) (hx : xc (k • P) = 0) : IsSquare (xc P) := by
  classical
  have h2' := two_ne_map h2
  have h := frobQ_algebraMap hc A (p := p)
  obtain ⟨R, hR⟩ := smul_surj h2' (disc_map hA) two_ne_zero (mapHom (algebraMap K (AlgebraicClosure K)) P)
  have hT0 : mapHom (algebraMap K (AlgebraicClosure K)) (k • P) ≠ 0 := fun e => h0 (mapPt_inj _ e)
  have hTx : xc (mapHom (algebraMap K (AlgebraicClosure K)) (k • P)) = 0 := by
    rw [show xc (mapHom (algebraMap K (AlgebraicClosure K)) (k • P)) = algebraMap K (AlgebraicClosure K) (xc (k • P)) from xc_mapPt _ _, hx, map_zero]
  have hP0 : P ≠ 0 := by rintro rfl; exact h0 (nsmul_zero _)
  have hRR : R + R ≠ 0 := by
    rw [← two_nsmul, hR]; exact fun e => hP0 (mapPt_inj _ e)
  have hR0 : R ≠ 0 := by rintro rfl; exact hRR (add_zero _)
  have hRx : xc R ≠ 0 := fun e => hRR (by rw [← two_nsmul]; exact zero_two h2' e)
  have hRy : yc R ≠ 0 := fun e => hRR ((add_self_iff h2' hR0).mpr e)
  -- Frobenius adds `(0, 0)`
  have e := hF h R
  have eT : (p + 1) • R = mapHom (algebraMap K (AlgebraicClosure K)) (k • P) := by rw [hk, mul_nsmul', hR, map_nsmul]
  have hfix : fixHom (frobQ K p) h R = R + mapHom (algebraMap K (AlgebraicClosure K)) (k • P) := by
    have t2 := zero_two h2' hTx
    rw [two_nsmul] at t2
    rw [e, ← neg_eq_of_add_eq_zero_right t2, ← eT, succ_nsmul, natCast_zsmul]
    abel
  obtain ⟨ex, ey⟩ := add_zeroPt hT0 hTx hRx
  rw [← hfix, xc_fix] at ex
  rw [← hfix, yc_fix] at ey
  -- the root
  have hd := xc_double h2' hRR
  rw [← two_nsmul, hR, show xc (mapHom (algebraMap K (AlgebraicClosure K)) P) = algebraMap K (AlgebraicClosure K) (xc P) from xc_mapPt _ _] at hd
  obtain ⟨s, hs⟩ : ∃ s : AlgebraicClosure K, s * (2 * yc R) = xc R ^ 2 - 1 := ⟨(xc R ^ 2 - 1) / (2 * yc R), div_mul_cancel₀ _ (mul_ne_zero h2' hRy)⟩
  have hfs : frobQ K p s = s := by
    have hs' := congrArg (frobQ K p) hs
    simp only [map_mul, map_sub, map_pow, map_one, map_ofNat] at hs'
    refine mul_right_cancel₀ (mul_ne_zero h2' hRy) ?_
    linear_combination (-xc R ^ 2) * hs' + (2 * frobQ K p s) * ey - (frobQ K p (xc R) * xc R + 1) * ex - hs
  obtain ⟨t, rfl⟩ := frobQ_fixed hc hfs
  refine ⟨t, (algebraMap K (AlgebraicClosure K)).injective ?_⟩
  rw [map_mul]
  refine mul_right_cancel₀ (pow_ne_zero 2 (mul_ne_zero h2' hRy)) ?_
  linear_combination hd - (algebraMap K (AlgebraicClosure K) t * (2 * yc R) + xc R ^ 2 - 1) * hs

end
end Festa
