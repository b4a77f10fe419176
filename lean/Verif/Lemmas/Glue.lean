import Verif.Lemmas.GlueMat
import Verif.Spec.Glue
/-! The gluing isogeny on points of the product. -/
namespace Festa
open WeierstrassCurve.Affine
variable {K : Type*} [Field K] [DecidableEq K]

theorem gluingCodomain_of {T1 T2 : ThPt K} {k1 k2 a b c a' b' c' : K} (h1 : T1.sqTheta = ThPt.scale k1 ⟨a, b, c, 0⟩)
    (h2 : T2.sqTheta = ThPt.scale k2 ⟨a', b', c', 0⟩) (hk1 : k1 ≠ 0) (hk2 : k2 ≠ 0) (ha : a ≠ 0) (hb : b ≠ 0)
    (hc : c ≠ 0) :
    gluingCodomain T1 T2 = (ThStr.new (gn (b / a) (c' / a')).had, (c' / a')⁻¹, (b / a)⁻¹, 3) := by
  have hz : zeroIndex (ThPt.scale k1 ⟨a, b, c, 0⟩) = 3 := by
    simp [zeroIndex, ThPt.scale, hk1, ha, hb, hc]
  have e1 : k1 * b * (k1 * a)⁻¹ = b / a := by field_simp
  have e2 : k2 * c' * (k2 * a')⁻¹ = c' / a' := by
    rw [mul_inv, show k2 * c' * (k2⁻¹ * a'⁻¹) = (k2 * k2⁻¹) * (c' * a'⁻¹) by ring, mul_inv_cancel₀ hk2, one_mul,
      div_eq_mul_inv]
  have e3 : k1 * a * (k1 * b)⁻¹ = (b / a)⁻¹ := by field_simp
  have e4 : k2 * a' * (k2 * c')⁻¹ = (c' / a')⁻¹ := by
    rw [← e2, mul_inv (k2 * c'), inv_inv, mul_comm]
  unfold gluingCodomain
  rw [h1, h2]
  dsimp only
  rw [hz]
  have g1 : (ThPt.scale k2 ⟨a', b', c', 0⟩).get (1 ^^^ 3) = k2 * c' := rfl
  have g2 : (ThPt.scale k1 ⟨a, b, c, 0⟩).get (2 ^^^ 3) = k1 * b := rfl
  have g3 : (ThPt.scale k2 ⟨a', b', c', 0⟩).get (3 ^^^ 3) = k2 * a' := rfl
  have g4 : (ThPt.scale k1 ⟨a, b, c, 0⟩).get (3 ^^^ 3) = k1 * a := rfl
  rw [g1, g2, g3, g4, e1, e2, e3, e4]
  rfl

theorem gluingCodomain_zero {T1 T2 : ThPt K} {U1 U2 : ThPt K} (h1 : T1 = ThPt.scale 0 U1)
    (h2 : T2 = ThPt.scale 0 U2) : ¬ ThNull (gluingCodomain T1 T2).1.null := by
  have e : ∀ U : ThPt K, ThPt.scale 0 U = ThPt.zero := fun U => by simp [ThPt.scale, ThPt.zero]
  have e2 : (ThPt.zero : ThPt K).sqTheta = ThPt.zero := by simp [ThPt.sqTheta, ThPt.had, ThPt.zero]
  have e3 : zeroIndex (ThPt.zero : ThPt K) = 3 := by simp [zeroIndex, ThPt.zero]
  have e4 : (gluingCodomain T1 T2).1.null = ThPt.had ⟨1, 0, 0, 0⟩ := by
    rw [h1, h2, e, e]
    unfold gluingCodomain
    rw [e2]
    dsimp only
    rw [e3]
    have g : ∀ i, (ThPt.zero : ThPt K).get i = 0 := by intro i; fin_cases i <;> rfl
    simp only [g, zero_mul]
    rfl
  intro h
  apply h.dual.Y
  rw [e4]
  simp [ThPt.sqTheta, ThPt.had]

theorem gluingImage_of {T T' : ThPt K} {k k' a b c a' b' c' D F : K} (h1 : T.sqTheta = ThPt.scale k ⟨a, b, c, 0⟩)
    (h2 : T'.sqTheta = ThPt.scale k' ⟨a', b', c', 0⟩) (hk : k ≠ 0) (hk' : k' ≠ 0) (hb : b ≠ 0) (hD : D ≠ 0)
    (hF : F ≠ 0) (ha' : a' ≠ 0) :
    gluingImage T T' F⁻¹ D⁻¹ 3 = (ThPt.scale k ⟨a, b / D, c / F, c' / F * (b / D) / a'⟩).had := by
  unfold gluingImage
  rw [h1, h2]
  have g1 : (ThPt.scale k ⟨a, b, c, 0⟩).get (1 ^^^ 3) = k * c := rfl
  have g2 : (ThPt.scale k ⟨a, b, c, 0⟩).get (2 ^^^ 3) = k * b := rfl
  have g3 : (ThPt.scale k ⟨a, b, c, 0⟩).get (3 ^^^ 3) = k * a := rfl
  have g4 : (ThPt.scale k' ⟨a', b', c', 0⟩).get (3 ^^^ 3) = k' * a' := rfl
  have g5 : (ThPt.scale k' ⟨a', b', c', 0⟩).get (1 ^^^ 3) = k' * c' := rfl
  have hz : ¬ (k * b * D⁻¹ = 0) := mul_ne_zero (mul_ne_zero hk hb) (inv_ne_zero hD)
  dsimp only
  rw [g1, g2, g3, g4, g5]
  simp only [hz, decide_false, cond']
  congr 1
  have e1 : k * b * D⁻¹ = k * (b / D) := by rw [div_eq_mul_inv, mul_assoc]
  have e2 : k * c * F⁻¹ = k * (c / F) := by rw [div_eq_mul_inv, mul_assoc]
  have e3 : k' * c' * F⁻¹ * (k * b * D⁻¹ * (k' * a')⁻¹) = k * (c' / F * (b / D) / a') := by field_simp
  have : ∀ v : ThPt K, (ThPt.ofFn fun i => v.get (i ^^^ 3)) = ⟨v.T, v.Z, v.Y, v.X⟩ := fun v => rfl
  rw [this]
  simp only [ThPt.scale, ThPt.mk.injEq]
  exact ⟨trivial, e1, e2, by simpa using e3⟩

theorem gluingImage_zero {T T' : ThPt K} {k k' a c a' b' c' D F : K} (h1 : T.sqTheta = ThPt.scale k ⟨a, 0, c, 0⟩)
    (h2 : T'.sqTheta = ThPt.scale k' ⟨a', b', c', 0⟩) (hk' : k' ≠ 0) (hD : D ≠ 0)
    (hF : F ≠ 0) (hb' : b' ≠ 0) :
    gluingImage T T' F⁻¹ D⁻¹ 3 = (ThPt.scale k ⟨a, 0, c / F, c' / F * a / (b' / D)⟩).had := by
  unfold gluingImage
  rw [h1, h2]
  have g1 : (ThPt.scale k ⟨a, 0, c, 0⟩).get (1 ^^^ 3) = k * c := rfl
  have g2 : (ThPt.scale k ⟨a, 0, c, 0⟩).get (2 ^^^ 3) = k * 0 := rfl
  have g3 : (ThPt.scale k ⟨a, 0, c, 0⟩).get (3 ^^^ 3) = k * a := rfl
  have g4 : (ThPt.scale k' ⟨a', b', c', 0⟩).get (2 ^^^ 3) = k' * b' := rfl
  have g5 : (ThPt.scale k' ⟨a', b', c', 0⟩).get (1 ^^^ 3) = k' * c' := rfl
  dsimp only
  rw [g1, g2, g3, g4, g5]
  simp only [mul_zero, zero_mul, decide_true, cond']
  congr 1
  have e2 : k * c * F⁻¹ = k * (c / F) := by rw [div_eq_mul_inv, mul_assoc]
  have e3 : k' * c' * F⁻¹ * (k * a * (k' * b' * D⁻¹)⁻¹) = k * (c' / F * a / (b' / D)) := by field_simp
  have : ∀ v : ThPt K, (ThPt.ofFn fun i => v.get (i ^^^ 3)) = ⟨v.T, v.Z, v.Y, v.X⟩ := fun v => rfl
  rw [this]
  simp only [ThPt.scale, ThPt.mk.injEq]
  exact ⟨trivial, by simp, e2, by simpa using e3⟩

/-- The two points of order eight on both factors. -/
structure GluePts (E : EProd K) (P8 Q8 : CPt K) (p1 q1 : MPoint E.E1.A) (p2 q2 : MPoint E.E2.A)
    (e L m w e' L' m' w' : K) : Prop where
  g1 : E.E1.Good
  g2 : E.E2.Good
  f1 : FacPts E.E1 p1 q1 e L m w
  f2 : FacPts E.E2 p2 q2 e' L' m' w'
  rp1 : PRep P8.P1 p1
  rp2 : PRep P8.P2 p2
  rq1 : PRep Q8.P1 q1
  rq2 : PRep Q8.P2 q2

/-- The two parameters of the codomain. -/
def gD {A A' : K} (e L m e' L' m' : K) (p1 : MPoint A) (p2 : MPoint A') : K :=
  ((U0 e L p1 ^ 2 - U1 e L m p1 ^ 2) * (U0 e' L' p2 ^ 2 - U1 e' L' m' p2 ^ 2)) /
    ((U0 e L p1 ^ 2 + U1 e L m p1 ^ 2) * (U0 e' L' p2 ^ 2 + U1 e' L' m' p2 ^ 2))
@[inherit_doc gD]
def gF {A A' : K} (e L m e' L' m' : K) (q1 : MPoint A) (q2 : MPoint A') : K :=
  (4 * (U0 e L q1 * U1 e L m q1) * (U0 e' L' q2 * U1 e' L' m' q2)) /
    ((U0 e L q1 ^ 2 + U1 e L m q1 ^ 2) * (U0 e' L' q2 ^ 2 + U1 e' L' m' q2 ^ 2))

/-- The image in adapted coordinates. -/
def gW {A A' : K} (D F e L m w e' L' m' w' : K) (r1 : MPoint A) (r2 : MPoint A') : ThPt K :=
  gw D F (U0 e L r1) (U1 e L m r1) (U0 e' L' r2) (U1 e' L' m' r2) (UY m w r1) (UY m' w' r2)

namespace FacPts
variable {E : Crv K} {p q : MPoint E.A} {e L m w : K} (h : FacPts E p q e L m w)
include h

theorem ne {r : MPoint E.A} (hr : 4 • r ≠ 0) : U0 e L r ^ 2 + U1 e L m r ^ 2 ≠ 0 ∧
    U0 e L r ^ 2 - U1 e L m r ^ 2 ≠ 0 ∧ U0 e L r * U1 e L m r ≠ 0 := by
  have f : 4 • r = 2 • (2 • r) := by rw [← mul_nsmul]
  refine ⟨fun h0 => hr ?_, fun h0 => hr ?_, fun h0 => hr ?_⟩
  · rw [f, h.alpha h0, nsmul_add, h.two_fp, h.two_fq, add_zero]
  · rw [f, h.beta h0, h.two_fq]
  · rw [f, h.gamma h0, h.two_fp]

theorem np : 4 • p ≠ 0 := by
  obtain ⟨k, hk⟩ := h.fp
  rw [hk]; rintro ⟨⟩

theorem nq : 4 • q ≠ 0 := by
  obtain ⟨x, k, hk, -⟩ := h.fq
  rw [hk]; rintro ⟨⟩

theorem shift_alpha {r : MPoint E.A} (hr : U0 e L r ^ 2 - U1 e L m r ^ 2 ≠ 0) :
    U0 e L (r + 2 • p) ^ 2 + U1 e L m (r + 2 • p) ^ 2 ≠ 0 := by
  intro h0
  have h1 := (h.add r).1
  rw [h0, mul_zero] at h1
  have h2 := (mul_eq_zero.mp ((mul_eq_zero.mp h1).resolve_right h.fac.np)).resolve_left hr
  refine h.nz (r + 2 • p) ?_
  rcases mul_eq_zero.mp h2 with h3 | h3
  · rw [h3] at h0 ⊢; exact ⟨rfl, by simpa using h0⟩
  · rw [h3] at h0 ⊢; exact ⟨by simpa using h0, rfl⟩

theorem shift_beta {r : MPoint E.A} (hr : U0 e L r ^ 2 + U1 e L m r ^ 2 ≠ 0) :
    U0 e L (r + 2 • p) ^ 2 - U1 e L m (r + 2 • p) ^ 2 ≠ 0 := by
  intro h0
  have h1 := (h.add r).2
  rw [h0, mul_zero] at h1
  have h2 := (mul_eq_zero.mp ((mul_eq_zero.mp h1).resolve_right h.fac.nq)).resolve_left hr
  refine h.nz (r + 2 • p) ?_
  rcases mul_eq_zero.mp h2 with h3 | h3
  · rw [h3] at h0 ⊢; exact ⟨rfl, by simpa using h0⟩
  · rw [h3] at h0 ⊢; exact ⟨by simpa using h0, rfl⟩

theorem alpha_of_beta {r : MPoint E.A} (hr : U0 e L r ^ 2 - U1 e L m r ^ 2 = 0) :
    U0 e L r ^ 2 + U1 e L m r ^ 2 ≠ 0 := by
  intro h0
  apply h.nz r
  constructor
  · have : 2 * U0 e L r ^ 2 = 0 := by linear_combination h0 + hr
    simpa using (mul_eq_zero.mp this).resolve_left h.fac.two
  · have : 2 * U1 e L m r ^ 2 = 0 := by linear_combination h0 - hr
    simpa using (mul_eq_zero.mp this).resolve_left h.fac.two

end FacPts

namespace GluePts
variable {E : EProd K} {P8 Q8 : CPt K} {p1 q1 : MPoint E.E1.A} {p2 q2 : MPoint E.E2.A}
  {e L m w e' L' m' w' : K} (h : GluePts E P8 Q8 p1 q1 p2 q2 e L m w e' L' m' w')
include h

theorem base {R : CPt K} {r1 : MPoint E.E1.A} {r2 : MPoint E.E2.A} (h1 : PRep R.P1 r1) (h2 : PRep R.P2 r2) :
    ∃ c : K, c ≠ 0 ∧ baseChangeCouple R (baseMatrix E (E.double P8) (E.double Q8)) =
      ThPt.scale (2 * ((L - e) / (2 * L) * ((L' - e') / (2 * L')) + (e + L) / (2 * L * m) * ((e' + L') / (2 * L' * m'))) * c)
        ⟨U0 e L r1 * U0 e' L' r2 + U1 e L m r1 * U1 e' L' m' r2, U0 e L r1 * U1 e' L' m' r2 + U1 e L m r1 * U0 e' L' r2,
         U0 e L r1 * U0 e' L' r2 - U1 e L m r1 * U1 e' L' m' r2, U0 e L r1 * U1 e' L' m' r2 - U1 e L m r1 * U0 e' L' r2⟩ := by
  have s1 := h.f1.sub (E.double P8).P1 (E.double Q8).P1 (prep_double h.g1 h.rp1) (prep_double h.g1 h.rq1)
  have s2 := h.f2.sub (E.double P8).P2 (E.double Q8).P2 (prep_double h.g2 h.rp2) (prep_double h.g2 h.rq2)
  obtain ⟨z1, n1, c1, c2⟩ := h.f1.coords h1
  obtain ⟨z2, n2, c3, c4⟩ := h.f2.coords h2
  refine ⟨z1 * z2, mul_ne_zero n1 n2, ?_⟩
  rw [baseChangeCouple]
  rw [baseMatrix_apply s1 s2, c1, c2, c3, c4]
  simp only [ThPt.scale, ThPt.mk.injEq]
  refine ⟨?_, ?_, ?_, ?_⟩ <;> ring

theorem ok : GOK m m' (gD e L m e' L' m' p1 p2) (gF e L m e' L' m' q1 q2) := by
  obtain ⟨a1, a2, a3⟩ := h.f1.ne h.f1.np
  obtain ⟨b1, b2, b3⟩ := h.f2.ne h.f2.np
  obtain ⟨c1, c2, c3⟩ := h.f1.ne h.f1.nq
  obtain ⟨d1, d2, d3⟩ := h.f2.ne h.f2.nq
  have h4 := four_ne h.g1.two
  refine ⟨h.g1.two, h.f1.fac.nm, h.f2.fac.nm, h.f1.fac.np, h.f1.fac.nq, h.f2.fac.np, h.f2.fac.nq,
    div_ne_zero (mul_ne_zero a2 b2) (mul_ne_zero a1 b1),
    div_ne_zero (mul_ne_zero (mul_ne_zero h4 c3) d3) (mul_ne_zero c1 d1), ?_, ?_⟩
  · have k1 := h.f1.eqP
    have k2 := h.f2.eqP
    have hp := h.f1.fac.np
    have hp' := h.f2.fac.np
    rw [gD, div_pow, div_eq_div_iff (pow_ne_zero 2 (mul_ne_zero a1 b1)) (mul_ne_zero hp hp')]
    generalize U0 e L p1 ^ 2 - U1 e L m p1 ^ 2 = B at *
    generalize U0 e L p1 ^ 2 + U1 e L m p1 ^ 2 = A at *
    generalize U0 e' L' p2 ^ 2 - U1 e' L' m' p2 ^ 2 = B' at *
    generalize U0 e' L' p2 ^ 2 + U1 e' L' m' p2 ^ 2 = A' at *
    linear_combination B' ^ 2 * (1 + m' ^ 2) * k1 - A ^ 2 * (1 - m ^ 2) * k2
  · have k1 := h.f1.eqQ
    have k2 := h.f2.eqQ
    have hp := h.f1.fac.np
    have hp' := h.f2.fac.np
    rw [gF, div_pow, div_eq_div_iff (pow_ne_zero 2 (mul_ne_zero c1 d1)) (mul_ne_zero hp hp')]
    generalize U0 e L q1 * U1 e L m q1 = B at *
    generalize U0 e L q1 ^ 2 + U1 e L m q1 ^ 2 = A at *
    generalize U0 e' L' q2 * U1 e' L' m' q2 = B' at *
    generalize U0 e' L' q2 ^ 2 + U1 e' L' m' q2 ^ 2 = A' at *
    linear_combination (2 * B') ^ 2 * (1 + m' ^ 2) * k1 - 2 * m * A ^ 2 * k2

/-- The base change is not zero when the codomain is usable. -/
theorem kappa (hn : ThNull (glueNull E P8 Q8)) :
    2 * ((L - e) / (2 * L) * ((L' - e') / (2 * L')) + (e + L) / (2 * L * m) * ((e' + L') / (2 * L' * m'))) ≠ 0 := by
  intro h0
  obtain ⟨c, hc, e1⟩ := h.base h.rp1 h.rp2
  obtain ⟨d, hd, e2⟩ := h.base h.rq1 h.rq2
  rw [h0, zero_mul] at e1 e2
  exact gluingCodomain_zero e1 e2 hn

theorem codomain (hn : ThNull (glueNull E P8 Q8)) :
    gluingCodomain (baseChangeCouple P8 (baseMatrix E (E.double P8) (E.double Q8)))
      (baseChangeCouple Q8 (baseMatrix E (E.double P8) (E.double Q8))) =
    (ThStr.new (gn (gD e L m e' L' m' p1 p2) (gF e L m e' L' m' q1 q2)).had, (gF e L m e' L' m' q1 q2)⁻¹,
      (gD e L m e' L' m' p1 p2)⁻¹, 3) := by
  have hκ := h.kappa hn
  obtain ⟨c, hc, e1⟩ := h.base h.rp1 h.rp2
  obtain ⟨d, hd, e2⟩ := h.base h.rq1 h.rq2
  obtain ⟨a1, a2, a3⟩ := h.f1.ne h.f1.np
  obtain ⟨b1, b2, b3⟩ := h.f2.ne h.f2.np
  have k1 := congrArg ThPt.sqTheta e1
  have k2 := congrArg ThPt.sqTheta e2
  rw [sqTheta_adapted] at k1 k2
  exact gluingCodomain_of k1 k2 (mul_ne_zero h.g1.two (pow_ne_zero 2 (mul_ne_zero hκ hc)))
    (mul_ne_zero h.g1.two (pow_ne_zero 2 (mul_ne_zero hκ hd))) (mul_ne_zero a1 b1) (mul_ne_zero a2 b2)
    (mul_ne_zero (mul_ne_zero (four_ne h.g1.two) a3) b3)

theorem null (hn : ThNull (glueNull E P8 Q8)) :
    glueNull E P8 Q8 = (gn (gD e L m e' L' m' p1 p2) (gF e L m e' L' m' q1 q2)).had := by
  unfold glueNull
  dsimp only
  rw [h.codomain hn]
  rfl

theorem image (hn : ThNull (glueNull E P8 Q8)) {R : CPt K} {r1 : MPoint E.E1.A} {r2 : MPoint E.E2.A}
    (h1 : PRep R.P1 r1) (h2 : PRep R.P2 r2) (hex : ¬ GlueExc p1 q1 p2 q2 r1 r2) :
    (gW (gD e L m e' L' m' p1 p2) (gF e L m e' L' m' q1 q2) e L m w e' L' m' w' r1 r2).had.Same (glue E P8 Q8 R) := by
  have hκ := h.kappa hn
  have ok := h.ok
  obtain ⟨c, hc, e1⟩ := h.base h1 h2
  obtain ⟨d, hd, e2⟩ := h.base (R := E.add R (E.double P8)) (prep_add h.g1 h1 (prep_double h.g1 h.rp1))
    (prep_add h.g2 h2 (prep_double h.g2 h.rp2))
  have k1 := congrArg ThPt.sqTheta e1
  have k2 := congrArg ThPt.sqTheta e2
  rw [sqTheta_adapted] at k1 k2
  have hk := mul_ne_zero h.g1.two (pow_ne_zero 2 (mul_ne_zero hκ hc))
  have hk' := mul_ne_zero h.g1.two (pow_ne_zero 2 (mul_ne_zero hκ hd))
  have s1 := h.f1.add r1
  have s2 := h.f2.add r2
  unfold glue
  dsimp only
  rw [h.codomain hn]
  dsimp only
  have hF := ok.hF
  have hD := ok.hD
  have hp := ok.p
  have hp' := ok.p'
  have hq := ok.q
  have hq' := ok.q'
  have nD := ok.nD
  have nF := ok.nF
  rw [eq_div_iff (mul_ne_zero hp hp')] at hF hD
  by_cases hb : (U0 e L r1 ^ 2 - U1 e L m r1 ^ 2) * (U0 e' L' r2 ^ 2 - U1 e' L' m' r2 ^ 2) = 0
  · have ab : U0 e L (r1 + 2 • p1) ^ 2 - U1 e L m (r1 + 2 • p1) ^ 2 ≠ 0 ∧
        U0 e' L' (r2 + 2 • p2) ^ 2 - U1 e' L' m' (r2 + 2 • p2) ^ 2 ≠ 0 := by
      rcases mul_eq_zero.mp hb with hb1 | hb1
      · refine ⟨h.f1.shift_beta (h.f1.alpha_of_beta hb1), h.f2.shift_beta fun h0 => hex ?_⟩
        exact Or.inl ⟨h.f1.beta hb1, h.f2.alpha h0⟩
      · refine ⟨h.f1.shift_beta fun h0 => hex ?_, h.f2.shift_beta (h.f2.alpha_of_beta hb1)⟩
        exact Or.inr ⟨h.f1.alpha h0, h.f2.beta hb1⟩
    rw [hb] at k1
    rw [gluingImage_zero k1 k2 hk' nD nF (mul_ne_zero ab.1 ab.2), had_scale]
    refine ⟨_, hk, ?_⟩
    congr 2
    rw [gW, gw, ThPt.mk.injEq]
    refine ⟨rfl, by rw [hb, zero_div], rfl, ?_⟩
    obtain ⟨c1, d1⟩ := ab
    replace s1 := s1.2
    replace s2 := s2.2
    clear k1 k2 e1 e2 hk hk' hb
    generalize gD e L m e' L' m' p1 p2 = D at *
    generalize gF e L m e' L' m' q1 q2 = F at *
    generalize U0 e L r1 ^ 2 + U1 e L m r1 ^ 2 = B at *
    generalize U0 e' L' r2 ^ 2 + U1 e' L' m' r2 ^ 2 = B' at *
    generalize U0 e L (r1 + 2 • p1) ^ 2 - U1 e L m (r1 + 2 • p1) ^ 2 = A at *
    generalize U0 e' L' (r2 + 2 • p2) ^ 2 - U1 e' L' m' (r2 + 2 • p2) ^ 2 = A' at *
    generalize U0 e L (r1 + 2 • p1) * U1 e L m (r1 + 2 • p1) = C at *
    generalize U0 e' L' (r2 + 2 • p2) * U1 e' L' m' (r2 + 2 • p2) = C' at *
    generalize UY m w r1 = Y at *
    generalize UY m' w' r2 = Y' at *
    have e4 : 4 * C * C' / F * (B * B') / (A * A' / D) = 4 * C * C' * (B * B') * D / (F * (A * A')) := by
      field_simp
    rw [e4, div_eq_div_iff (mul_ne_zero nF (mul_ne_zero c1 d1)) nD]
    apply mul_left_cancel₀ (mul_ne_zero hq hq')
    linear_combination (4 * D ^ 2 * B' * C' * (1 - m' ^ 2)) * s1 - (4 * D ^ 2 * 2 * m * Y * A) * s2 -
      (4 * Y * Y' * A * A' * D ^ 2) * hF + (4 * Y * Y' * A * A' * F ^ 2) * hD
  · have hb1 := left_ne_zero_of_mul hb
    have hb2 := right_ne_zero_of_mul hb
    have c1 := h.f1.shift_alpha hb1
    have d1 := h.f2.shift_alpha hb2
    rw [gluingImage_of k1 k2 hk hk' hb nD nF (mul_ne_zero c1 d1), had_scale]
    refine ⟨_, hk, ?_⟩
    congr 2
    rw [gW, gw, ThPt.mk.injEq]
    refine ⟨rfl, rfl, rfl, ?_⟩
    replace s1 := s1.1
    replace s2 := s2.1
    clear k1 k2 e1 e2 hk hk' hb
    generalize gD e L m e' L' m' p1 p2 = D at *
    generalize gF e L m e' L' m' q1 q2 = F at *
    generalize U0 e L r1 ^ 2 - U1 e L m r1 ^ 2 = B at *
    generalize U0 e' L' r2 ^ 2 - U1 e' L' m' r2 ^ 2 = B' at *
    generalize U0 e L (r1 + 2 • p1) ^ 2 + U1 e L m (r1 + 2 • p1) ^ 2 = A at *
    generalize U0 e' L' (r2 + 2 • p2) ^ 2 + U1 e' L' m' (r2 + 2 • p2) ^ 2 = A' at *
    generalize U0 e L (r1 + 2 • p1) * U1 e L m (r1 + 2 • p1) = C at *
    generalize U0 e' L' (r2 + 2 • p2) * U1 e' L' m' (r2 + 2 • p2) = C' at *
    generalize UY m w r1 = Y at *
    generalize UY m' w' r2 = Y' at *
    rw [div_mul_div_comm, div_div, div_eq_div_iff (mul_ne_zero (mul_ne_zero nF nD) (mul_ne_zero c1 d1)) nD]
    apply mul_left_cancel₀ (mul_ne_zero hp hp')
    linear_combination (4 * D * B' * C' * (1 + m' ^ 2)) * s1 + (4 * D * 2 * m * Y * A) * s2 -
      (4 * Y * Y' * D * A * A') * hF

/-- The image lies on the Kummer surface. -/
theorem kummer (hn : ThNull (glueNull E P8 Q8)) {R : CPt K} {r1 : MPoint E.E1.A} {r2 : MPoint E.E2.A}
    (h1 : PRep R.P1 r1) (h2 : PRep R.P2 r2) (hex : ¬ GlueExc p1 q1 p2 q2 r1 r2) :
    OnKummer (glueNull E P8 Q8) (glue E P8 Q8 R) := by
  refine OnKummer.same ?_ (h.image hn h1 h2 hex)
  rw [h.null hn]
  exact gw_kummer h.ok (h.f1.onC r1) (h.f2.onC r2)

/-- Gluing commutes with doubling. -/
theorem double (hn : ThNull (glueNull E P8 Q8)) {R R' : CPt K} {r1 : MPoint E.E1.A} {r2 : MPoint E.E2.A}
    (h1 : PRep R.P1 r1) (h2 : PRep R.P2 r2) (h1' : PRep R'.P1 (2 • r1)) (h2' : PRep R'.P2 (2 • r2))
    (hex : ¬ GlueExc p1 q1 p2 q2 r1 r2) (hex' : ¬ GlueExc p1 q1 p2 q2 (2 • r1) (2 • r2)) :
    ((ThStr.new (glueNull E P8 Q8)).double (glue E P8 Q8 R)).Same (glue E P8 Q8 R') := by
  have i1 := h.image hn h1 h2 hex
  have i2 := h.image hn h1' h2' hex'
  refine (double_same _ i1).symm.trans (ThPt.Same.trans ?_ i2)
  have hnull := h.null hn
  rw [hnull]
  rw [hnull] at hn
  refine (gw_double h.ok (h.f1.onC r1) (h.f2.onC r2) hn).trans ?_
  obtain ⟨c, hc, d1, d2⟩ := h.f1.dbl r1
  obtain ⟨c', hc', d3, d4⟩ := h.f2.dbl r2
  rw [d1, d2, d3, d4]
  refine ThPt.Same.symm ⟨(c * c') ^ 2, pow_ne_zero 2 (mul_ne_zero hc hc'), ?_⟩
  rw [← had_scale]
  congr 1
  simp only [gW, gw, ThPt.scale, ThPt.mk.injEq]
  refine ⟨?_, ?_, ?_, ?_⟩ <;> ring

/-- Opposite points have the same image. -/
theorem neg (hn : ThNull (glueNull E P8 Q8)) {R R' : CPt K} {r1 : MPoint E.E1.A} {r2 : MPoint E.E2.A}
    (h1 : PRep R.P1 r1) (h2 : PRep R.P2 r2) (h1' : PRep R'.P1 (-r1)) (h2' : PRep R'.P2 (-r2))
    (hex : ¬ GlueExc p1 q1 p2 q2 r1 r2) (hex' : ¬ GlueExc p1 q1 p2 q2 (-r1) (-r2)) :
    (glue E P8 Q8 R).Same (glue E P8 Q8 R') := by
  have i1 := h.image hn h1 h2 hex
  have i2 := h.image hn h1' h2' hex'
  refine i1.symm.trans (ThPt.Same.trans ?_ i2)
  obtain ⟨a1, a2, a3⟩ := FacPts.neg (e := e) (L := L) (m := m) (w := w) r1
  obtain ⟨b1, b2, b3⟩ := FacPts.neg (e := e') (L := L') (m := m') (w := w') r2
  rw [gW, gW, a1, a2, a3, b1, b2, b3]
  have e1 : ∀ D F u0 u1 v0 v1 Y Y' : K, gw D F u0 u1 v0 v1 (-Y) (-Y') = gw D F u0 u1 v0 v1 Y Y' := by
    intro D F u0 u1 v0 v1 Y Y'
    simp only [gw, ThPt.mk.injEq, true_and]
    ring
  rw [e1]
  exact ThPt.Same.refl _

/-- The first kernel point. -/
theorem add_p (hn : ThNull (glueNull E P8 Q8)) {R R' : CPt K} {r1 : MPoint E.E1.A} {r2 : MPoint E.E2.A}
    (h1 : PRep R.P1 r1) (h2 : PRep R.P2 r2) (h1' : PRep R'.P1 (r1 + 4 • p1)) (h2' : PRep R'.P2 (r2 + 4 • p2))
    (hex : ¬ GlueExc p1 q1 p2 q2 r1 r2) (hex' : ¬ GlueExc p1 q1 p2 q2 (r1 + 4 • p1) (r2 + 4 • p2)) :
    (glue E P8 Q8 R).Same (glue E P8 Q8 R') := by
  have i1 := h.image hn h1 h2 hex
  have i2 := h.image hn h1' h2' hex'
  refine i1.symm.trans (ThPt.Same.trans ?_ i2)
  obtain ⟨c, hc, a1, a2, a3⟩ := h.f1.add_fp r1
  obtain ⟨c', hc', b1, b2, b3⟩ := h.f2.add_fp r2
  rw [gW, gW, a1, a2, a3, b1, b2, b3]
  refine ⟨(c * c') ^ 2, pow_ne_zero 2 (mul_ne_zero hc hc'), ?_⟩
  rw [← had_scale]
  congr 1
  simp only [gw, ThPt.scale, ThPt.mk.injEq]
  refine ⟨?_, ?_, ?_, ?_⟩ <;> ring

/-- The second kernel point. -/
theorem add_q (hn : ThNull (glueNull E P8 Q8)) {R R' : CPt K} {r1 : MPoint E.E1.A} {r2 : MPoint E.E2.A}
    (h1 : PRep R.P1 r1) (h2 : PRep R.P2 r2) (h1' : PRep R'.P1 (r1 + 4 • q1)) (h2' : PRep R'.P2 (r2 + 4 • q2))
    (hex : ¬ GlueExc p1 q1 p2 q2 r1 r2) (hex' : ¬ GlueExc p1 q1 p2 q2 (r1 + 4 • q1) (r2 + 4 • q2)) :
    (glue E P8 Q8 R).Same (glue E P8 Q8 R') := by
  have i1 := h.image hn h1 h2 hex
  have i2 := h.image hn h1' h2' hex'
  refine i1.symm.trans (ThPt.Same.trans ?_ i2)
  obtain ⟨c, hc, a1, a2, a3⟩ := h.f1.add_fq r1
  obtain ⟨c', hc', b1, b2, b3⟩ := h.f2.add_fq r2
  rw [gW, gW, a1, a2, a3, b1, b2, b3]
  refine ⟨(c * c') ^ 2, pow_ne_zero 2 (mul_ne_zero hc hc'), ?_⟩
  rw [← had_scale]
  congr 1
  simp only [gw, ThPt.scale, ThPt.mk.injEq]
  refine ⟨?_, ?_, ?_, ?_⟩ <;> ring

theorem exc_neg {r1 : MPoint E.E1.A} {r2 : MPoint E.E2.A} (hex : ¬ GlueExc p1 q1 p2 q2 r1 r2) :
    ¬ GlueExc p1 q1 p2 q2 (-r1) (-r2) := by
  have n : ∀ {A : K} {X : MPoint A}, 2 • X = 0 → -X = X := fun h0 => by
    rw [two_nsmul] at h0; exact neg_eq_of_add_eq_zero_left h0
  have a1 := n h.f1.two_fq
  have a2 := n h.f2.two_fq
  have a3 := n (X := 4 • p1 + 4 • q1) (by rw [nsmul_add, h.f1.two_fp, h.f1.two_fq, add_zero])
  have a4 := n (X := 4 • p2 + 4 • q2) (by rw [nsmul_add, h.f2.two_fp, h.f2.two_fq, add_zero])
  rintro (⟨x, y⟩ | ⟨x, y⟩) <;> rw [neg_nsmul, neg_eq_iff_eq_neg] at x y
  · exact hex (.inl ⟨x.trans a1, y.trans a4⟩)
  · exact hex (.inr ⟨x.trans a3, y.trans a2⟩)

theorem exc_add {r1 : MPoint E.E1.A} {r2 : MPoint E.E2.A} {s1 : MPoint E.E1.A} {s2 : MPoint E.E2.A}
    (h1 : 2 • s1 = 0) (h2 : 2 • s2 = 0) (hex : ¬ GlueExc p1 q1 p2 q2 r1 r2) :
    ¬ GlueExc p1 q1 p2 q2 (r1 + s1) (r2 + s2) := by
  simpa only [GlueExc, nsmul_add, h1, h2, add_zero] using hex

theorem add_kernel (hn : ThNull (glueNull E P8 Q8)) {R R' : CPt K} {r1 : MPoint E.E1.A} {r2 : MPoint E.E2.A} (a b : Nat)
    (h1 : PRep R.P1 r1) (h2 : PRep R.P2 r2) (h1' : PRep R'.P1 (r1 + (a • (4 • p1) + b • (4 • q1))))
    (h2' : PRep R'.P2 (r2 + (a • (4 • p2) + b • (4 • q2)))) (hex : ¬ GlueExc p1 q1 p2 q2 r1 r2) :
    (glue E P8 Q8 R).Same (glue E P8 Q8 R') := by
  have par : ∀ {A : K} {S : MPoint A} (c : Nat), 2 • S = 0 → c • S = (c % 2) • S := fun {A S} c h0 => by
    conv_lhs => rw [← Nat.mod_add_div c 2, add_nsmul, mul_comm 2, mul_nsmul', h0, nsmul_zero, add_zero]
  rw [par a h.f1.two_fp, par b h.f1.two_fq] at h1'
  rw [par a h.f2.two_fp, par b h.f2.two_fq] at h2'
  rcases Nat.mod_two_eq_zero_or_one a with ha | ha <;> rcases Nat.mod_two_eq_zero_or_one b with hb | hb <;>
    rw [ha, hb] at h1' h2' <;> simp only [zero_nsmul, one_nsmul, add_zero, zero_add] at h1' h2'
  · exact (h.image hn h1 h2 hex).symm.trans (h.image hn h1' h2' hex)
  · exact h.add_q hn h1 h2 h1' h2' hex (h.exc_add h.f1.two_fq h.f2.two_fq hex)
  · exact h.add_p hn h1 h2 h1' h2' hex (h.exc_add h.f1.two_fp h.f2.two_fp hex)
  · have hx := h.exc_add h.f1.two_fp h.f2.two_fp hex
    obtain ⟨S, s1, s2⟩ : ∃ S : CPt K, PRep S.P1 (r1 + 4 • p1) ∧ PRep S.P2 (r2 + 4 • p2) :=
      ⟨⟨E.E1.add R.P1 (E.E1.doubleIter P8.P1 2), E.E2.add R.P2 (E.E2.doubleIter P8.P2 2)⟩,
        prep_add h.g1 h1 (prep_doubleIter h.g1 h.rp1 2), prep_add h.g2 h2 (prep_doubleIter h.g2 h.rp2 2)⟩
    rw [← add_assoc] at h1' h2'
    exact (h.add_p hn h1 h2 s1 s2 hex hx).trans
      (h.add_q hn s1 s2 h1' h2' hx (h.exc_add h.f1.two_fq h.f2.two_fq hx))

/-- The neutral element goes to the null point. -/
theorem zero (hn : ThNull (glueNull E P8 Q8)) {R : CPt K} (h1 : PRep R.P1 (0 : MPoint E.E1.A))
    (h2 : PRep R.P2 (0 : MPoint E.E2.A)) : (glueNull E P8 Q8).Same (glue E P8 Q8 R) := by
  have i1 := h.image hn h1 h2 (by
    rintro (⟨h0, -⟩ | ⟨-, h0⟩)
    · rw [nsmul_zero] at h0; exact h.f1.nq h0.symm
    · rw [nsmul_zero] at h0; exact h.f2.nq h0.symm)
  refine ThPt.Same.trans ?_ i1
  rw [h.null hn]
  have ok := h.ok
  have hp := ok.p
  have hp' := ok.p'
  have nD := ok.nD
  have nF := ok.nF
  have hD := ok.hD
  have hF := ok.hF
  refine ⟨(1 + m ^ 2) * (1 + m' ^ 2), mul_ne_zero hp hp', ?_⟩
  rw [← had_scale]
  congr 1
  rw [eq_div_iff (mul_ne_zero hp hp')] at hD hF
  simp only [gW, gw, gn, ThPt.scale, ThPt.mk.injEq]
  rw [show U0 e L (0 : MPoint E.E1.A) = 1 from rfl, show U1 e L m (0 : MPoint E.E1.A) = m from rfl,
    show U0 e' L' (0 : MPoint E.E2.A) = 1 from rfl, show U1 e' L' m' (0 : MPoint E.E2.A) = m' from rfl,
    show UY m w (0 : MPoint E.E1.A) = 0 from rfl]
  refine ⟨by ring, ?_, ?_, by ring⟩
  · rw [div_eq_iff nD]; linear_combination -hD
  · rw [div_eq_iff nF]; linear_combination -hF

end GluePts
end Festa
