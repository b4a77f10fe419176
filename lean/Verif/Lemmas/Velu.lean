import Verif.Lemmas.VeluUp
import Mathlib.FieldTheory.IsAlgClosed.AlgebraicClosure
/-! The isogeny with a cyclic kernel of odd order in the form computed by the code. -/
namespace Festa
open WeierstrassCurve.Affine

section cyc
variable {L : Type*} [Field L] [DecidableEq L] {A : L} {P : MPoint A} {d : Nat}

theorem zmul_half (hord : addOrderOf P = 2 * d + 1) [Fintype (AddSubgroup.zmultiples P)] :
    IsHalf (AddSubgroup.zmultiples P) d
      (fun i => ⟨(i + 1) • P, AddSubgroup.nsmul_mem_zmultiples P _⟩) := by
  refine ⟨fun i hi h => ?_, fun f => prod_zmul hord f⟩
  have h' : (i + 1) • P = 0 := congrArg Subtype.val h
  have := Nat.le_of_dvd (by omega) (addOrderOf_dvd_iff_nsmul_eq_zero.mpr h')
  omega

theorem zmul_card (hord : addOrderOf P = 2 * d + 1) [Fintype (AddSubgroup.zmultiples P)] :
    Fintype.card (AddSubgroup.zmultiples P) = 2 * d + 1 := by
  rw [← Nat.card_eq_fintype_card, Nat.card_zmultiples, hord]

theorem zmul_vd (h2 : (2 : L) ≠ 0) (hA : A * A ≠ 4) (hord : addOrderOf P = 2 * d + 1)
    [Fintype (AddSubgroup.zmultiples P)] : VD (AddSubgroup.zmultiples P) :=
  ⟨h2, hA, by rw [zmul_card hord]; exact ⟨d, rfl⟩, ⟨_, _, zmul_half hord⟩⟩

theorem zmul_cs (hord : addOrderOf P = 2 * d + 1) [Fintype (AddSubgroup.zmultiples P)] (s : L) :
    cs (AddSubgroup.zmultiples P) s = (∏ i ∈ Finset.range d, (s - xc ((i + 1) • P))) ^ 2 := by
  unfold cs
  rw [prod_zmul hord, ← Finset.prod_pow]
  refine Finset.prod_congr rfl fun i _ => ?_
  rw [NegMemClass.coe_neg, xc_neg, pow_two]

theorem zmul_ns (hord : addOrderOf P = 2 * d + 1) [Fintype (AddSubgroup.zmultiples P)] (s : L) :
    ns (AddSubgroup.zmultiples P) s = s * (∏ i ∈ Finset.range d, (s * xc ((i + 1) • P) - 1)) ^ 2 := by
  unfold ns
  rw [prod_zmul hord, ← Finset.prod_pow]
  congr 1
  refine Finset.prod_congr rfl fun i _ => ?_
  rw [NegMemClass.coe_neg, xc_neg, pow_two]

theorem zmul_px (hord : addOrderOf P = 2 * d + 1) [Fintype (AddSubgroup.zmultiples P)] :
    px (AddSubgroup.zmultiples P) = (∏ i ∈ Finset.range d, xc ((i + 1) • P)) ^ 2 := by
  unfold px
  rw [prod_zmul hord, ← Finset.prod_pow]
  refine Finset.prod_congr rfl fun i _ => ?_
  rw [NegMemClass.coe_neg, xc_neg, pow_two]

end cyc

section base
variable {K : Type*} [Field K] [DecidableEq K] {A : K}

/-- The Edwards form of the codomain determines the images of the points of order two. -/
theorem VD.codomain {L : Type*} [Field L] [DecidableEq L] {A : L} {G : AddSubgroup (MPoint A)} [Fintype G]
    [IsAlgClosed L] (v : VD G) {t : L} (ht : t ^ 2 + A * t + 1 = 0) {T : MPoint A} (hT : T ∉ G)
    (hTx : xc T = t) (hTy : yc T = 0) {a e : L} (ha : a = (A + 2) ^ Fintype.card G * cs G (-1) ^ 4)
    (he : e = (A - 2) ^ Fintype.card G * cs G 1 ^ 4) :
    a ≠ e ∧ ∀ A', A' * (a - e) = 2 * (a + e) → fx G T ^ 2 + A' * fx G T + 1 = 0 := by
  obtain ⟨e1, e2⟩ := v.edwards ht hT hTx hTy
  obtain ⟨c1, c2⟩ := v.cs_one_ne
  have ct := cs_ne hT
  rw [hTx] at ct
  have h0 := root_ne_zero ht
  have hp := v.px_ne
  have hl := v.hodd
  have hA1 : (A + 2) * t = -(1 - t) ^ 2 := by linear_combination ht
  have hA2 : (A - 2) * t = -(1 + t) ^ 2 := by linear_combination ht
  have p1 : (A + 2) ^ Fintype.card G * t ^ Fintype.card G = -((1 - t) ^ Fintype.card G) ^ 2 := by
    rw [← mul_pow, hA1, hl.neg_pow, ← pow_mul, ← pow_mul, mul_comm 2]
  have p2 : (A - 2) ^ Fintype.card G * t ^ Fintype.card G = -((1 + t) ^ Fintype.card G) ^ 2 := by
    rw [← mul_pow, hA2, hl.neg_pow, ← pow_mul, ← pow_mul, mul_comm 2]
  have ht0 : t ^ Fintype.card G ≠ 0 := pow_ne_zero _ h0
  -- `a : e = (1 - τ)² : (1 + τ)²`
  have q1 : a * (t ^ Fintype.card G * px G ^ 2) = -(cs G t * cs G 1 * cs G (-1)) ^ 2 * (1 - fx G T) ^ 2 := by
    rw [ha]
    calc _ = ((A + 2) ^ Fintype.card G * t ^ Fintype.card G) * (px G ^ 2 * cs G (-1) ^ 4) := by ring
      _ = -(px G * ((1 - t) ^ Fintype.card G * cs G (-1))) ^ 2 * cs G (-1) ^ 2 := by rw [p1]; ring
      _ = _ := by rw [e1]; ring
  have q2 : e * (t ^ Fintype.card G * px G ^ 2) = -(cs G t * cs G 1 * cs G (-1)) ^ 2 * (1 + fx G T) ^ 2 := by
    rw [he]
    calc _ = ((A - 2) ^ Fintype.card G * t ^ Fintype.card G) * (px G ^ 2 * cs G 1 ^ 4) := by ring
      _ = -(px G * ((1 + t) ^ Fintype.card G * cs G 1)) ^ 2 * cs G 1 ^ 2 := by rw [p2]; ring
      _ = _ := by rw [e2]; ring
  have h4 : (4 : L) ≠ 0 := by
    have : (4 : L) = 2 * 2 := by norm_num
    rw [this]; exact mul_ne_zero v.h2 v.h2
  have hc : (cs G t * cs G 1 * cs G (-1)) ^ 2 ≠ 0 := pow_ne_zero 2 (mul_ne_zero (mul_ne_zero ct c1) c2)
  constructor
  · rintro rfl
    have h : (cs G t * cs G 1 * cs G (-1)) ^ 2 * (4 * fx G T) = 0 := by linear_combination q2 - q1
    have hf : fx G T = 0 := by
      rcases mul_eq_zero.mp h with h | h
      · exact absurd h hc
      · exact (mul_eq_zero.mp h).resolve_left h4
    obtain ⟨S, hSx, hSy, hS0, -, hS⟩ := exists_two_tors v (root_inv ht)
    have := v.two_image ht hT hS hTx hSx
    rw [hf, zero_mul] at this
    exact zero_ne_one this
  · intro A' h
    have : (cs G t * cs G 1 * cs G (-1)) ^ 2 * (4 * (fx G T ^ 2 + A' * fx G T + 1)) = 0 := by
      linear_combination (t ^ Fintype.card G * px G ^ 2) * h - (A' - 2) * q1 + (A' + 2) * q2
    rcases mul_eq_zero.mp this with h | h
    · exact absurd h hc
    · exact (mul_eq_zero.mp h).resolve_left h4

/-- `velu` together with the homomorphism over the algebraic closure from which it is obtained. -/
theorem velu_full [DecidableEq (AlgebraicClosure K)] (h2 : (2 : K) ≠ 0) (hA : A * A ≠ 4) {P : MPoint A} {d : Nat}
    (hord : addOrderOf P = 2 * d + 1) {a e : K}
    (ha : a = (A + 2) ^ (2 * d + 1) * (∏ i ∈ Finset.range d, (xc ((i + 1) • P) + 1)) ^ 8)
    (he : e = (A - 2) ^ (2 * d + 1) * (∏ i ∈ Finset.range d, (xc ((i + 1) • P) - 1)) ^ 8) :
    a ≠ e ∧ ∀ A', A' * (a - e) = 2 * (a + e) → A' * A' ≠ 4 ∧
      ∃ φ : MPoint A →+ MPoint A', (∀ Q, φ Q = 0 ↔ Q ∈ AddSubgroup.zmultiples P) ∧
        (∀ Q, Q ∉ AddSubgroup.zmultiples P →
          xc (φ Q) * (∏ i ∈ Finset.range d, (xc Q - xc ((i + 1) • P))) ^ 2 =
            xc Q * (∏ i ∈ Finset.range d, (xc Q * xc ((i + 1) • P) - 1)) ^ 2) ∧
        ∃ (h2' : (2 : AlgebraicClosure K) ≠ 0)
          (hA1 : algebraMap K (AlgebraicClosure K) A * algebraMap K (AlgebraicClosure K) A ≠ 4)
          (hA2 : algebraMap K (AlgebraicClosure K) A' * algebraMap K (AlgebraicClosure K) A' ≠ 4)
          (_ : Fintype (AddSubgroup.zmultiples (up (algebraMap K (AlgebraicClosure K)) h2' hA1 P)))
          (k : AlgebraicClosure K) (φ' : MPoint (algebraMap K (AlgebraicClosure K) A) →+
            MPoint (algebraMap K (AlgebraicClosure K) A')),
          addOrderOf (up (algebraMap K (AlgebraicClosure K)) h2' hA1 P) = 2 * d + 1 ∧
          (∀ Q, φ' Q = 0 ↔
            Q ∈ AddSubgroup.zmultiples (up (algebraMap K (AlgebraicClosure K)) h2' hA1 P)) ∧
          (∀ Q, Q ∉ AddSubgroup.zmultiples (up (algebraMap K (AlgebraicClosure K)) h2' hA1 P) →
            xc (φ' Q) = fx (AddSubgroup.zmultiples (up (algebraMap K (AlgebraicClosure K)) h2' hA1 P)) Q ∧
            yc (φ' Q) = k * fy (AddSubgroup.zmultiples (up (algebraMap K (AlgebraicClosure K)) h2' hA1 P)) Q) ∧
          k ^ 2 * py (AddSubgroup.zmultiples (up (algebraMap K (AlgebraicClosure K)) h2' hA1 P)) ^ 2 =
            px (AddSubgroup.zmultiples (up (algebraMap K (AlgebraicClosure K)) h2' hA1 P)) ^ 3 ∧
          ∀ Q, up (algebraMap K (AlgebraicClosure K)) h2' hA2 (φ Q) =
            φ' (up (algebraMap K (AlgebraicClosure K)) h2' hA1 Q) := by
  let f := algebraMap K (AlgebraicClosure K)
  have hinj : Function.Injective f := f.injective
  have h2' : (2 : AlgebraicClosure K) ≠ 0 := by
    rw [← map_ofNat f 2]; exact (map_ne_zero f).mpr h2
  have hA' : f A * f A ≠ 4 := by
    rw [← map_ofNat f 4, ← map_mul]; exact fun h => hA (hinj h)
  let u := up (A := A) f h2' hA'
  have hui : Function.Injective u := up_inj
  have hord' : addOrderOf (u P) = 2 * d + 1 := by
    rw [← hord]; exact addOrderOf_injective u hui P
  have hfin : Finite (AddSubgroup.zmultiples (u P)) :=
    finite_zmultiples.mpr (addOrderOf_pos_iff.mp (by omega))
  let this := Fintype.ofFinite (AddSubgroup.zmultiples (u P))
  have v := zmul_vd h2' hA' hord'
  have hcard := zmul_card hord'
  obtain ⟨t, ht⟩ : ∃ t : AlgebraicClosure K, t ^ 2 + f A * t + 1 = 0 := by
    obtain ⟨s, hs⟩ := IsAlgClosed.exists_pow_nat_eq (f A ^ 2 - 4) (n := 2) (by norm_num)
    refine ⟨(-f A + s) / 2, ?_⟩
    field_simp
    linear_combination hs
  obtain ⟨T, hTx, hTy, hT0, -, hT⟩ := exists_two_tors v ht
  have hx : ∀ i, xc ((i + 1) • u P) = f (xc ((i + 1) • P)) := fun i => by
    rw [← map_nsmul]; exact xc_up _
  have c1 : cs (AddSubgroup.zmultiples (u P)) 1 = f ((∏ i ∈ Finset.range d, (xc ((i + 1) • P) - 1)) ^ 2) := by
    rw [zmul_cs hord', ← Finset.prod_pow, ← Finset.prod_pow, map_prod]
    refine Finset.prod_congr rfl fun i _ => ?_
    rw [hx, map_pow, map_sub, map_one]; ring
  have c2 : cs (AddSubgroup.zmultiples (u P)) (-1) = f ((∏ i ∈ Finset.range d, (xc ((i + 1) • P) + 1)) ^ 2) := by
    rw [zmul_cs hord', ← Finset.prod_pow, ← Finset.prod_pow, map_prod]
    refine Finset.prod_congr rfl fun i _ => ?_
    rw [hx, map_pow, map_add, map_one]; ring
  obtain ⟨hne, hcod⟩ := v.codomain ht hT hTx hTy (a := f a) (e := f e)
    (by rw [ha, hcard, c2]; simp only [map_mul, map_pow, map_add, map_ofNat]; ring)
    (by rw [he, hcard, c1]; simp only [map_mul, map_pow, map_sub, map_ofNat]; ring)
  refine ⟨fun h => hne (by rw [h]), fun A' h => ?_⟩
  have hcA' := hcod (f A') (by
    have := congrArg f h
    simpa only [map_mul, map_sub, map_add, map_ofNat] using this)
  -- the constant of the ordinates
  have hpy : py (AddSubgroup.zmultiples (u P)) =
      f (∏ i ∈ Finset.range d, (yc ((i + 1) • P) * -yc ((i + 1) • P))) := by
    unfold py
    rw [prod_zmul hord', map_prod]
    refine Finset.prod_congr rfl fun i _ => ?_
    rw [NegMemClass.coe_neg, yc_neg, map_mul, map_neg]
    have : yc ((i + 1) • u P) = f (yc ((i + 1) • P)) := by rw [← map_nsmul]; exact yc_up _
    rw [this]
  have hpx : px (AddSubgroup.zmultiples (u P)) = f ((∏ i ∈ Finset.range d, xc ((i + 1) • P)) ^ 2) := by
    rw [zmul_px hord', map_pow, map_prod]
    congr 1
    exact Finset.prod_congr rfl fun i _ => hx i
  have hpy0 : (∏ i ∈ Finset.range d, (yc ((i + 1) • P) * -yc ((i + 1) • P))) ≠ 0 := fun h =>
    v.py_ne (by rw [hpy, h, map_zero])
  obtain ⟨k, hk⟩ : ∃ k : K, k = (∏ i ∈ Finset.range d, xc ((i + 1) • P)) ^ 3 /
      (∏ i ∈ Finset.range d, (yc ((i + 1) • P) * -yc ((i + 1) • P))) := ⟨_, rfl⟩
  have hk2 : (f k) ^ 2 * py (AddSubgroup.zmultiples (u P)) ^ 2 = px (AddSubgroup.zmultiples (u P)) ^ 3 := by
    rw [hpy, hpx, ← map_pow, ← map_pow, ← map_pow, ← map_mul, hk]
    congr 1
    have := div_mul_cancel₀ ((∏ i ∈ Finset.range d, xc ((i + 1) • P)) ^ 3) hpy0
    rw [← hk] at this ⊢
    linear_combination (k * (∏ i ∈ Finset.range d, (yc ((i + 1) • P) * -yc ((i + 1) • P))) +
      (∏ i ∈ Finset.range d, xc ((i + 1) • P)) ^ 3) * this
  obtain ⟨hdisc, φ, hker, hφ⟩ := v.hom ht hT hTx hTy hcA' hk2
  have hdisc' : A' * A' ≠ 4 := fun h => hdisc (by rw [← map_mul, h, map_ofNat])
  refine ⟨hdisc', ?_⟩
  let u' := up (A := A') f h2' hdisc
  have hui' : Function.Injective u' := up_inj
  have hmem : ∀ Q : MPoint A, Q ∈ AddSubgroup.zmultiples P ↔ u Q ∈ AddSubgroup.zmultiples (u P) := by
    intro Q
    rw [AddSubgroup.mem_zmultiples_iff, AddSubgroup.mem_zmultiples_iff]
    constructor
    · rintro ⟨n, rfl⟩; exact ⟨n, (map_zsmul u n P).symm⟩
    · rintro ⟨n, hn⟩; exact ⟨n, hui (by rw [map_zsmul, hn])⟩
  have hfx : ∀ Q : MPoint A, fx (AddSubgroup.zmultiples (u P)) (u Q) =
      f (xc Q * ∏ i ∈ Finset.range d, xc (Q + (i + 1) • P) * xc (Q + -((i + 1) • P))) := by
    intro Q
    unfold fx
    rw [prod_split, prod_zmul hord', ZeroMemClass.coe_zero, add_zero, map_mul, map_prod]
    congr 1
    · exact xc_up _
    refine Finset.prod_congr rfl fun i _ => ?_
    change xc (u Q + (i + 1) • u P) * xc (u Q + -((i + 1) • u P)) = _
    rw [← map_nsmul, ← map_neg, ← map_add, ← map_add, map_mul]
    congr 1 <;> exact xc_up _
  have hfy : ∀ Q : MPoint A, fy (AddSubgroup.zmultiples (u P)) (u Q) =
      f (yc Q * ∏ i ∈ Finset.range d, yc (Q + (i + 1) • P) * yc (Q + -((i + 1) • P))) := by
    intro Q
    unfold fy
    rw [prod_split, prod_zmul hord', ZeroMemClass.coe_zero, add_zero, map_mul, map_prod]
    congr 1
    · exact yc_up _
    refine Finset.prod_congr rfl fun i _ => ?_
    change yc (u Q + (i + 1) • u P) * yc (u Q + -((i + 1) • u P)) = _
    rw [← map_nsmul, ← map_neg, ← map_add, ← map_add, map_mul]
    congr 1 <;> exact yc_up _
  -- the images are points over the base field
  have hrange : ∀ Q : MPoint A, ∃ R : MPoint A', u' R = φ (u Q) := by
    intro Q
    by_cases hQ : Q ∈ AddSubgroup.zmultiples P
    · exact ⟨0, by rw [map_zero, (hker _).mpr ((hmem Q).mp hQ)]⟩
    · have hQ' : u Q ∉ AddSubgroup.zmultiples (u P) := fun h => hQ ((hmem Q).mpr h)
      obtain ⟨e1, e2⟩ := hφ _ hQ'
      rw [hfx] at e1
      rw [hfy, ← map_mul] at e2
      have hne : φ (u Q) ≠ 0 := fun h => hQ' ((hker _).mp h)
      have hc := yc_sq hne
      rw [e1, e2] at hc
      have hc' := hinj (by simpa only [map_mul, map_pow, map_add] using hc :
        f ((k * (yc Q * ∏ i ∈ Finset.range d, yc (Q + (i + 1) • P) * yc (Q + -((i + 1) • P)))) ^ 2) =
        f ((xc Q * ∏ i ∈ Finset.range d, xc (Q + (i + 1) • P) * xc (Q + -((i + 1) • P))) ^ 3 +
          A' * (xc Q * ∏ i ∈ Finset.range d, xc (Q + (i + 1) • P) * xc (Q + -((i + 1) • P))) ^ 2 +
          (xc Q * ∏ i ∈ Finset.range d, xc (Q + (i + 1) • P) * xc (Q + -((i + 1) • P)))))
      have hns := nonsing_of h2 hdisc' (x := xc Q * ∏ i ∈ Finset.range d, xc (Q + (i + 1) • P) * xc (Q + -((i + 1) • P)))
        (y := k * (yc Q * ∏ i ∈ Finset.range d, yc (Q + (i + 1) • P) * yc (Q + -((i + 1) • P))))
        (by linear_combination hc')
      refine ⟨.some _ _ hns, ?_⟩
      refine pt_ext (fun h => ?_) hne ?_ ?_
      · exact Point.some_ne_zero hns (hui' (by rw [h, map_zero]))
      · rw [e1]; exact xc_up _
      · rw [e2]; exact yc_up _
  choose g hg using hrange
  have gadd : ∀ Q R, g (Q + R) = g Q + g R := fun Q R => hui' (by
    rw [hg, map_add u', hg, hg, map_add, map_add])
  refine ⟨AddMonoidHom.mk' g gadd, fun Q => ?_, fun Q hQ => ?_, h2', hA', hdisc, this, f k, φ, hord', hker,
    hφ, hk2, hg⟩
  · rw [AddMonoidHom.mk'_apply, hmem, ← hker, ← hg]
    constructor
    · intro h; rw [h, map_zero]
    · intro h; exact hui' (by rw [h, map_zero])
  · rw [AddMonoidHom.mk'_apply]
    have hQ' : u Q ∉ AddSubgroup.zmultiples (u P) := fun h => hQ ((hmem Q).mpr h)
    have h1 := v.formula hQ'
    rw [← (hφ _ hQ').1, ← hg, zmul_cs hord', zmul_ns hord'] at h1
    apply hinj
    have ex : xc (u' (g Q)) = f (xc (g Q)) := xc_up _
    have eq : xc (u Q) = f (xc Q) := xc_up _
    rw [ex, eq] at h1
    simp only [map_mul, map_pow, map_prod, map_sub, map_one]
    simp only [hx] at h1
    exact h1

/-- The isogeny of odd degree with a cyclic kernel: the curve with the Edwards constants of the code is
not singular, and the abscissa formula of the code is that of a group homomorphism whose kernel is
the subgroup. -/
theorem velu (h2 : (2 : K) ≠ 0) (hA : A * A ≠ 4) {P : MPoint A} {d : Nat}
    (hord : addOrderOf P = 2 * d + 1) {a e : K}
    (ha : a = (A + 2) ^ (2 * d + 1) * (∏ i ∈ Finset.range d, (xc ((i + 1) • P) + 1)) ^ 8)
    (he : e = (A - 2) ^ (2 * d + 1) * (∏ i ∈ Finset.range d, (xc ((i + 1) • P) - 1)) ^ 8) :
    a ≠ e ∧ ∀ A', A' * (a - e) = 2 * (a + e) → A' * A' ≠ 4 ∧
      ∃ φ : MPoint A →+ MPoint A', (∀ Q, φ Q = 0 ↔ Q ∈ AddSubgroup.zmultiples P) ∧
        ∀ Q, Q ∉ AddSubgroup.zmultiples P →
          xc (φ Q) * (∏ i ∈ Finset.range d, (xc Q - xc ((i + 1) • P))) ^ 2 =
            xc Q * (∏ i ∈ Finset.range d, (xc Q * xc ((i + 1) • P) - 1)) ^ 2 := by
  classical
  obtain ⟨h1, h3⟩ := velu_full h2 hA hord ha he
  refine ⟨h1, fun A' h => ?_⟩
  obtain ⟨h4, φ, h5, h6, -⟩ := h3 A' h
  exact ⟨h4, φ, h5, h6⟩

end base
end Festa
