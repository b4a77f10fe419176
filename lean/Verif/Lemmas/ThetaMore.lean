import Verif.Lemmas.ThetaLoop
import Mathlib.FieldTheory.IsAlgClosed.AlgebraicClosure
/-! More on doubling, single isogenies and the splitting of theta structures. -/
namespace Festa
variable {K : Type*} [Field K]

/-! ### Doubling over any field -/

/-- Coordinatewise image. -/
def ThPt.map {L : Type*} (f : K → L) (P : ThPt K) : ThPt L := ⟨f P.X, f P.Y, f P.Z, f P.T⟩

theorem map_sqTheta {L : Type*} [Field L] (f : K →+* L) (P : ThPt K) :
    (P.map f).sqTheta = P.sqTheta.map f := by
  simp only [ThPt.map, ThPt.sqTheta, ThPt.had, map_add, map_sub, map_mul]

theorem map_double {L : Type*} [Field L] (f : K →+* L) (O P : ThPt K) :
    (ThStr.new (O.map f)).double (P.map f) = ((ThStr.new O).double P).map f := by
  simp only [ThStr.double, ThStr.new, map_sqTheta]
  simp only [ThPt.map, ThPt.had, map_add, map_sub, map_mul, map_inv₀]

theorem map_kummer {L : Type*} [Field L] (f : K →+* L) (O P : ThPt K) :
    kummer (O.map f) (P.map f) = f (kummer O P) := by
  simp only [kummer, ThPt.map, map_add, map_sub, map_mul, map_pow, map_ofNat]

theorem NZ.map {L : Type*} [Field L] (f : K →+* L) {P : ThPt K} (h : P.NZ) : (P.map f).NZ :=
  ⟨(map_ne_zero f).mpr h.X, (map_ne_zero f).mpr h.Y, (map_ne_zero f).mpr h.Z, (map_ne_zero f).mpr h.T⟩

/-- Over an algebraically closed field every null point has a dual. -/
theorem exists_dual {L : Type*} [Field L] [IsAlgClosed L] (O : ThPt L) : ∃ A, DualOf O A 1 := by
  obtain ⟨a, ha⟩ := IsAlgClosed.exists_pow_nat_eq O.sqTheta.X (n := 2) (by norm_num)
  obtain ⟨b, hb⟩ := IsAlgClosed.exists_pow_nat_eq O.sqTheta.Y (n := 2) (by norm_num)
  obtain ⟨c, hc⟩ := IsAlgClosed.exists_pow_nat_eq O.sqTheta.Z (n := 2) (by norm_num)
  obtain ⟨d, hd⟩ := IsAlgClosed.exists_pow_nat_eq O.sqTheta.T (n := 2) (by norm_num)
  exact ⟨⟨a, b, c, d⟩, one_ne_zero, by simpa using ha, by simpa using hb, by simpa using hc, by simpa using hd⟩

theorem kummer_double (h2 : (2 : K) ≠ 0) {O P : ThPt K} (hO : ThNull O) (hP : OnKummer O P) :
    OnKummer O ((ThStr.new O).double P) := by
  let f := algebraMap K (AlgebraicClosure K)
  have hO' : ThNull (O.map f) := ⟨NZ.map f hO.nz, by rw [map_sqTheta]; exact NZ.map f hO.dual⟩
  have h2' : (2 : AlgebraicClosure K) ≠ 0 := by
    have := (map_ne_zero f).mpr h2
    rwa [map_ofNat] at this
  obtain ⟨A, hA⟩ := exists_dual (O.map f)
  have hP' : OnKummer (O.map f) (P.map f) := by
    show kummer _ _ = 0
    rw [map_kummer, show kummer O P = 0 from hP, map_zero]
  have := kummer_double_of_dual h2' hA hO' hP'
  rw [map_double] at this
  exact (map_eq_zero f).mp ((map_kummer f O _).symm.trans this)

/-- The quadruple of zeros. -/
def ThPt.zero : ThPt K := ⟨0, 0, 0, 0⟩

theorem scale_zero (c : K) : (ThPt.zero : ThPt K).scale c = ThPt.zero := by
  simp only [ThPt.scale, ThPt.zero, mul_zero]

theorem scale_eq_zero {c : K} (hc : c ≠ 0) {P : ThPt K} (h : P.scale c = ThPt.zero) : P = ThPt.zero := by
  simp only [ThPt.scale, ThPt.zero, ThPt.mk.injEq, mul_eq_zero, hc, false_or] at h
  obtain ⟨h1, h2, h3, h4⟩ := h
  ext <;> assumption

theorem four_ne (h2 : (2 : K) ≠ 0) : (4 : K) ≠ 0 := by
  rw [show (4 : K) = 2 * 2 by norm_num]; exact mul_ne_zero h2 h2

theorem had_eq_zero (h2 : (2 : K) ≠ 0) {P : ThPt K} (h : P.had = ThPt.zero) : P = ThPt.zero := by
  have e := had_had P
  rw [h] at e
  have : (ThPt.zero : ThPt K).had = ThPt.zero := by simp [ThPt.had, ThPt.zero]
  rw [this] at e
  exact scale_eq_zero (four_ne h2) e.symm

theorem sqTheta_eq_zero (h2 : (2 : K) ≠ 0) {P : ThPt K} (h : P.sqTheta = ThPt.zero) : P = ThPt.zero := by
  have := had_eq_zero h2 h
  simp only [ThPt.zero, ThPt.mk.injEq, mul_self_eq_zero] at this
  obtain ⟨h1, h2, h3, h4⟩ := this
  ext <;> assumption

theorem div_eq_zero_pt {P A : ThPt K} (hA : A.NZ) (h : P.div A = ThPt.zero) : P = ThPt.zero := by
  simp only [ThPt.div, ThPt.zero, ThPt.mk.injEq, div_eq_zero_iff, hA.X, hA.Y, hA.Z, hA.T, or_false] at h
  obtain ⟨h1, h2, h3, h4⟩ := h
  ext <;> assumption

theorem double_ne_zero (h2 : (2 : K) ≠ 0) {O P : ThPt K} (hO : ThNull O) (hP : P ≠ ThPt.zero) :
    (ThStr.new O).double P ≠ ThPt.zero := by
  intro h
  rw [double_eq hO] at h
  have h := scale_eq_zero (mul_ne_zero hO.nz.X hO.dual.X) h
  have h := div_eq_zero_pt hO.dual (had_eq_zero h2 (div_eq_zero_pt hO.nz h))
  simp only [ThPt.mul, ThPt.zero, ThPt.mk.injEq, mul_self_eq_zero] at h
  obtain ⟨h1, h3, h4, h5⟩ := h
  exact hP (sqTheta_eq_zero h2 (by ext <;> assumption))

theorem double_null (h2 : (2 : K) ≠ 0) {O : ThPt K} (hO : ThNull O) :
    O.Same ((ThStr.new O).double O) := by
  refine ⟨4 * (O.X * O.sqTheta.X), mul_ne_zero (four_ne h2) (mul_ne_zero hO.nz.X hO.dual.X), ?_⟩
  have e : (O.sqTheta.mul O.sqTheta).div O.sqTheta = O.sqTheta := by
    simp only [ThPt.mul, ThPt.div, mul_self_div_self]
  have e2 : ∀ c : K, ((ThPt.mk (O.X * O.X) (O.Y * O.Y) (O.Z * O.Z) (O.T * O.T)).scale c).div O = O.scale c := by
    intro c
    simp only [ThPt.scale, ThPt.div, mul_div_assoc, div_self hO.nz.X, div_self hO.nz.Y, div_self hO.nz.Z,
      div_self hO.nz.T, mul_one]
  rw [double_eq hO, e, ThPt.sqTheta, had_had, e2, scale_scale]

/-! ### Single isogenies -/

theorem isoImage_null' {O T1 T2 : ThPt K} (hO : O.sqTheta.NZ) (hd : KerDual O T1 T2) :
    (isoNull O T1 T2).Same (isoImage O T1 T2 O) := by
  have hn := hd.nz hO
  rw [isoImage_eq' hO hd, isoNull]
  refine had_same ⟨O.sqTheta.X, hO.X, ?_⟩
  have f : ∀ {s a : K}, a ≠ 0 → a ^ 2 = O.sqTheta.X⁻¹ * s → s / a = O.sqTheta.X * a := by
    intro s a ha e
    rw [div_eq_iff ha, mul_assoc, ← pow_two, e, mul_inv_cancel_left₀ hO.X]
  simp only [ThPt.div, ThPt.scale, ThPt.mk.injEq]
  exact ⟨f hn.X hd.X, f hn.Y hd.Y, f hn.Z hd.Z, f hn.T hd.T⟩

theorem isoImage_null (h2 : (2 : K) ≠ 0) {O T1 T2 : ThPt K} (hO : ThNull O) (h : Kernel8 O T1 T2) :
    (isoNull O T1 T2).Same (isoImage O T1 T2 O) := isoImage_null' hO.dual (kernel_dual h2 hO h)

theorem isoImage_ne_zero' (h2 : (2 : K) ≠ 0) {O T1 T2 P : ThPt K} (hO : O.sqTheta.NZ) (h : KerDual O T1 T2)
    (hP : P ≠ ThPt.zero) : isoImage O T1 T2 P ≠ ThPt.zero := by
  intro e
  rw [isoImage_eq' hO h] at e
  exact hP (sqTheta_eq_zero h2 (div_eq_zero_pt (h.nz hO) (had_eq_zero h2 e)))

theorem isoImage_ne_zero (h2 : (2 : K) ≠ 0) {O T1 T2 P : ThPt K} (hO : ThNull O) (h : Kernel8 O T1 T2)
    (hP : P ≠ ThPt.zero) : isoImage O T1 T2 P ≠ ThPt.zero := isoImage_ne_zero' h2 hO.dual (kernel_dual h2 hO h) hP

theorem toProd_agrees' {O T1 T2 : ThPt K} (hO : O.had.sqTheta.NZ)
    (h : KerDual O.had T1.had T2.had) (P : ThPt K) :
    (toProdNull T1 T2).had = isoNull O.had T1.had T2.had ∧
      (toProdImage T1 T2 P).had = isoImage O.had T1.had T2.had P.had := by
  have hn := h.nz hO
  refine ⟨rfl, ?_⟩
  rw [isoImage_eq' hO h]
  congr 1
  obtain ⟨-, n1, n2, n3⟩ := hn
  simp only [twoIsoCoeffs, ThPt.div, toProdImage, ThPt.mk.injEq, div_one, true_and] at *
  generalize T1.had.sqTheta = S1 at *
  generalize T2.had.sqTheta = S2 at *
  generalize P.had.sqTheta = S at *
  refine ⟨?_, ?_, ?_⟩
  · rw [div_eq_mul_inv, mul_inv, inv_inv, mul_comm S1.Y⁻¹]
  · rw [div_eq_mul_inv, mul_inv, inv_inv, mul_comm S2.Z⁻¹]
  · rw [div_eq_mul_inv, mul_inv, mul_inv, mul_inv, inv_inv, inv_inv, mul_comm S2.T⁻¹, mul_comm S1.Y⁻¹]

theorem toProd_agrees (h2 : (2 : K) ≠ 0) {O T1 T2 : ThPt K} (hO : ThNull O.had)
    (h : Kernel8 O.had T1.had T2.had) (P : ThPt K) :
    (toProdNull T1 T2).had = isoNull O.had T1.had T2.had ∧
      (toProdImage T1 T2 P).had = isoImage O.had T1.had T2.had P.had :=
  toProd_agrees' hO.dual (kernel_dual h2 hO h) P

end Festa
