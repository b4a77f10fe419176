import Verif.Lemmas.GlueCurve
import Verif.Lemmas.ECLadder
import Verif.Lemmas.ThetaLoop
import Verif.Lemmas.VeluBase
import Verif.Lemmas.Kernel
import Verif.Spec.Pairing
/-! The base change of the gluing isogeny in adapted coordinates. -/
namespace Festa
open WeierstrassCurve.Affine
variable {K : Type*} [Field K]

/-- What `baseSubmatrix` returns for the point with abscissa `e + L` whose double has abscissa `e`. -/
def subM (e L : K) : K × K × K × K := (-(e / L), -(1 / L), (e ^ 2 - L ^ 2) / L, e / L)

/-- The action of a submatrix on coordinates. -/
def sx (g : K × K × K × K) (X Z : K) : K := g.1 * X + g.2.2.1 * Z
@[inherit_doc sx]
def sz (g : K × K × K × K) (X Z : K) : K := g.2.1 * X + g.2.2.2 * Z

/-- Adapted coordinates. -/
def ku0 (e L X Z : K) : K := X - (e + L) * Z
@[inherit_doc ku0]
def ku1 (e L m X Z : K) : K := m * (X - (e - L) * Z)

/-- The four facts about one factor. -/
structure SubOK (e L m a b : K) (g h : K × K × K × K) : Prop where
  x : ∀ X Z, X = a * ku0 e L X Z + b * ku1 e L m X Z
  g0 : ∀ X Z, ku0 e L (sx g X Z) (sz g X Z) = ku0 e L X Z
  g1 : ∀ X Z, ku1 e L m (sx g X Z) (sz g X Z) = -ku1 e L m X Z
  h0 : ∀ X Z, ku0 e L (sx h X Z) (sz h X Z) = ku1 e L m X Z
  h1 : ∀ X Z, ku1 e L m (sx h X Z) (sz h X Z) = ku0 e L X Z

theorem subOK_of {e L m e' L' : K} (h2 : (2 : K) ≠ 0) (hL : L ≠ 0) (hL' : L' ≠ 0) (hm : m ≠ 0)
    (hq : 1 - m ^ 2 ≠ 0) (h1 : (e' - e) * (1 - m ^ 2) = L * (1 + m ^ 2)) (h3 : L' * (1 - m ^ 2) = -2 * m * L) :
    SubOK e L m ((L - e) / (2 * L)) ((e + L) / (2 * L * m)) (subM e L) (subM e' L') := by
  have he : e' = e + L * (1 + m ^ 2) / (1 - m ^ 2) := by
    rw [eq_comm, ← sub_eq_zero]; field_simp; linear_combination -h1
  have hl : L' = -2 * m * L / (1 - m ^ 2) := by rw [eq_div_iff hq, h3]
  subst he
  subst hl
  constructor <;> intro X Z <;> simp only [ku0, ku1, sx, sz, subM] <;> field_simp <;> ring

section
variable {e1 L1 m1 a1 b1 e2 L2 m2 a2 b2 : K} {g1 h1 g2 h2 : K × K × K × K}

/-- The rows of the matrix. -/
theorem rows_of (s1 : SubOK e1 L1 m1 a1 b1 g1 h1) (s2 : SubOK e2 L2 m2 a2 b2 g2 h2) {a b c d : K}
    (ha : a = 1 + g1.1 * g2.1 + h1.1 * h2.1 +
      (g1.1 * h1.1 + g1.2.1 * h1.2.2.1) * (g2.1 * h2.1 + g2.2.1 * h2.2.2.1))
    (hb : b = 0 + g1.1 * g2.2.2.1 + h1.1 * h2.2.2.1 +
      (g1.1 * h1.1 + g1.2.1 * h1.2.2.1) * (g2.2.2.1 * h2.1 + g2.2.2.2 * h2.2.2.1))
    (hc : c = 0 + g1.2.2.1 * g2.1 + h1.2.2.1 * h2.1 +
      (g1.2.2.1 * h1.1 + g1.2.2.2 * h1.2.2.1) * (g2.1 * h2.1 + g2.2.1 * h2.2.2.1))
    (hd : d = 0 + g1.2.2.1 * g2.2.2.1 + h1.2.2.1 * h2.2.2.1 +
      (g1.2.2.1 * h1.1 + g1.2.2.2 * h1.2.2.1) * (g2.2.2.1 * h2.1 + g2.2.2.2 * h2.2.2.1))
    (X1 Z1 X2 Z2 : K) :
    a * (X1 * X2) + b * (X1 * Z2) + c * (Z1 * X2) + d * (Z1 * Z2) = 2 * (a1 * a2 + b1 * b2) *
      (ku0 e1 L1 X1 Z1 * ku0 e2 L2 X2 Z2 + ku1 e1 L1 m1 X1 Z1 * ku1 e2 L2 m2 X2 Z2) := by
  have e0 : a * (X1 * X2) + b * (X1 * Z2) + c * (Z1 * X2) + d * (Z1 * Z2) =
      X1 * X2 + sx g1 X1 Z1 * sx g2 X2 Z2 + sx h1 X1 Z1 * sx h2 X2 Z2 +
        sx h1 (sx g1 X1 Z1) (sz g1 X1 Z1) * sx h2 (sx g2 X2 Z2) (sz g2 X2 Z2) := by
    subst ha hb hc hd
    simp only [sx, sz]
    ring
  have k1 := s1.x X1 Z1
  have k2 := s2.x X2 Z2
  have k3 := s1.x (sx g1 X1 Z1) (sz g1 X1 Z1)
  have k4 := s2.x (sx g2 X2 Z2) (sz g2 X2 Z2)
  have k5 := s1.x (sx h1 X1 Z1) (sz h1 X1 Z1)
  have k6 := s2.x (sx h2 X2 Z2) (sz h2 X2 Z2)
  have k7 := s1.x (sx h1 (sx g1 X1 Z1) (sz g1 X1 Z1)) (sz h1 (sx g1 X1 Z1) (sz g1 X1 Z1))
  have k8 := s2.x (sx h2 (sx g2 X2 Z2) (sz g2 X2 Z2)) (sz h2 (sx g2 X2 Z2) (sz g2 X2 Z2))
  simp only [s1.g0, s1.g1, s1.h0, s1.h1, s2.g0, s2.g1, s2.h0, s2.h1] at k3 k4 k5 k6 k7 k8
  rw [e0, k7, k8, k3, k4, k5, k6]
  generalize ku0 e1 L1 X1 Z1 = u0 at *
  generalize ku1 e1 L1 m1 X1 Z1 = u1 at *
  generalize ku0 e2 L2 X2 Z2 = v0 at *
  generalize ku1 e2 L2 m2 X2 Z2 = v1 at *
  rw [k1, k2]
  ring

/-- The base change. -/
theorem baseMatrix_apply {E : EProd K} {P Q : CPt K} (s1 : SubOK e1 L1 m1 a1 b1 (baseSubmatrix E.E1 P.P1)
    (baseSubmatrix E.E1 Q.P1)) (s2 : SubOK e2 L2 m2 a2 b2 (baseSubmatrix E.E2 P.P2) (baseSubmatrix E.E2 Q.P2))
    (X1 Z1 X2 Z2 : K) :
    ThPt.baseChange ⟨X1 * X2, X1 * Z2, Z1 * X2, Z1 * Z2⟩ (baseMatrix E P Q) =
      ThPt.scale (2 * (a1 * a2 + b1 * b2))
        ⟨ku0 e1 L1 X1 Z1 * ku0 e2 L2 X2 Z2 + ku1 e1 L1 m1 X1 Z1 * ku1 e2 L2 m2 X2 Z2,
         ku0 e1 L1 X1 Z1 * ku1 e2 L2 m2 X2 Z2 + ku1 e1 L1 m1 X1 Z1 * ku0 e2 L2 X2 Z2,
         ku0 e1 L1 X1 Z1 * ku0 e2 L2 X2 Z2 - ku1 e1 L1 m1 X1 Z1 * ku1 e2 L2 m2 X2 Z2,
         ku0 e1 L1 X1 Z1 * ku1 e2 L2 m2 X2 Z2 - ku1 e1 L1 m1 X1 Z1 * ku0 e2 L2 X2 Z2⟩ := by
  unfold baseMatrix
  generalize baseSubmatrix E.E1 P.P1 = g1 at *
  generalize baseSubmatrix E.E2 P.P2 = g2 at *
  generalize baseSubmatrix E.E1 Q.P1 = h1 at *
  generalize baseSubmatrix E.E2 Q.P2 = h2 at *
  have R := rows_of s1 s2 rfl rfl rfl rfl
  dsimp only
  generalize 1 + g1.1 * g2.1 + h1.1 * h2.1 +
      (g1.1 * h1.1 + g1.2.1 * h1.2.2.1) * (g2.1 * h2.1 + g2.2.1 * h2.2.2.1) = a at *
  generalize 0 + g1.1 * g2.2.2.1 + h1.1 * h2.2.2.1 +
      (g1.1 * h1.1 + g1.2.1 * h1.2.2.1) * (g2.2.2.1 * h2.1 + g2.2.2.2 * h2.2.2.1) = b at *
  generalize 0 + g1.2.2.1 * g2.1 + h1.2.2.1 * h2.1 +
      (g1.2.2.1 * h1.1 + g1.2.2.2 * h1.2.2.1) * (g2.1 * h2.1 + g2.2.1 * h2.2.2.1) = c at *
  generalize 0 + g1.2.2.1 * g2.2.2.1 + h1.2.2.1 * h2.2.2.1 +
      (g1.2.2.1 * h1.1 + g1.2.2.2 * h1.2.2.1) * (g2.2.2.1 * h2.1 + g2.2.2.2 * h2.2.2.1) = d at *
  generalize 2 * (a1 * a2 + b1 * b2) = κ at *
  have r0 := R X1 Z1 X2 Z2
  have r1 := R X1 Z1 (sx h2 X2 Z2) (sz h2 X2 Z2)
  have r2 := R (sx g1 X1 Z1) (sz g1 X1 Z1) X2 Z2
  have r3 := R (sx g1 X1 Z1) (sz g1 X1 Z1) (sx h2 X2 Z2) (sz h2 X2 Z2)
  simp only [s1.g0, s1.g1, s2.h0, s2.h1] at r1 r2 r3
  simp only [ThPt.baseChange, ThPt.dot, ThPt.scale, ThPt.mk.injEq]
  refine ⟨r0, ?_, ?_, ?_⟩
  · rw [← r1]; simp only [sx, sz]; ring
  · rw [sub_eq_add_neg, ← neg_mul, ← r2]; simp only [sx, sz]; ring
  · rw [sub_eq_add_neg, ← neg_mul, ← r3]; simp only [sx, sz]; ring

end

/-- The squares of the transformed coordinates. -/
theorem sqTheta_adapted (k u0 u1 v0 v1 : K) :
    (ThPt.scale k ⟨u0 * v0 + u1 * v1, u0 * v1 + u1 * v0, u0 * v0 - u1 * v1, u0 * v1 - u1 * v0⟩).sqTheta =
      ThPt.scale (2 * k ^ 2) ⟨(u0 ^ 2 + u1 ^ 2) * (v0 ^ 2 + v1 ^ 2), (u0 ^ 2 - u1 ^ 2) * (v0 ^ 2 - v1 ^ 2),
        4 * (u0 * u1) * (v0 * v1), 0⟩ := by
  simp only [ThPt.scale, ThPt.sqTheta, ThPt.had, ThPt.mk.injEq]
  refine ⟨?_, ?_, ?_, ?_⟩ <;> ring

section
variable [DecidableEq K]

theorem fixXZ_of {X Z : K} (h : Z ≠ 0) : fixXZ X Z = (X, Z) := by
  simp [fixXZ, h, cond']

theorem submatrix_eq {E : Crv K} (hE : E.Good) {p : Pt K} {t yT e : K} {h : (mont E.A).Nonsingular t yT}
    {h' : (mont E.A).Nonsingular e 0} (hp : PRep p (.some t yT h : MPoint E.A))
    (hT : 2 • (Point.some t yT h : MPoint E.A) = .some e 0 h') : baseSubmatrix E p = subM e (t - e) := by
  obtain ⟨-, hL, -, -⟩ := four_tangent hE.two hT
  obtain ⟨hz, hx, -⟩ := hp
  have hd := krep_dbl hE (Q := .some t yT h) (X := p.X) (Z := p.Z) ⟨hz, hx⟩
  rw [hT] at hd
  obtain ⟨hw, hu⟩ := hd
  unfold baseSubmatrix
  dsimp only
  generalize E.xDbl p.X p.Z = uw at *
  obtain ⟨u, w⟩ := uw
  simp only at hw hu ⊢
  rw [hu, hx, subM]
  have e1 : w * (t * p.Z) - e * w * p.Z = w * p.Z * (t - e) := by ring
  rw [e1]
  simp only [Prod.mk.injEq]
  refine ⟨?_, ?_, ?_, ?_⟩ <;> field_simp
  ring

/-- Adapted coordinates of a point. -/
def U0 (e L : K) {A : K} : MPoint A → K
  | .zero => 1
  | .some x _ _ => gcs e L x - 1
@[inherit_doc U0]
def U1 (e L m : K) {A : K} : MPoint A → K
  | .zero => m
  | .some x _ _ => m * (gcs e L x + 1)
@[inherit_doc U0]
def UY (m yT : K) {A : K} : MPoint A → K
  | .zero => 0
  | .some _ y _ => gcy m yT y

/-- One factor: `p`, `q` of order eight. -/
structure FacPts (E : Crv K) (p q : MPoint E.A) (e L m w : K) : Prop where
  fac : Fac E.A e L m
  yT : w ≠ 0
  cT : w * w = (e + L) * (e + L) * (e + L) + E.A * (e + L) * (e + L) + (e + L)
  tp : ∃ k, 2 • p = (.some (e + L) w k : MPoint E.A)
  tq : ∃ x y k, 2 • q = (.some x y k : MPoint E.A) ∧ gcs e L x * (1 + m) = 1 - m
  fp : ∃ k, 4 • p = (.some e 0 k : MPoint E.A)
  fq : ∃ x k, 4 • q = (.some x 0 k : MPoint E.A) ∧ gcs e L x * (1 - m ^ 2) = 1 + m ^ 2
  sub : ∀ p4 q4 : Pt K, PRep p4 (2 • p) → PRep q4 (2 • q) →
    SubOK e L m ((L - e) / (2 * L)) ((e + L) / (2 * L * m)) (baseSubmatrix E p4) (baseSubmatrix E q4)

omit [DecidableEq K] in
theorem exists_some {A : K} {P : MPoint A} (h : P ≠ 0) : ∃ x y k, P = (.some x y k : MPoint A) := by
  rcases P with _ | ⟨x, y, k⟩
  · exact absurd rfl h
  · exact ⟨x, y, k, rfl⟩

theorem ne_of_nsmul {H : Type*} [AddCommGroup H] {r : H} {n : Nat} (h : n • r ≠ 0) : r ≠ 0 := by
  rintro rfl; exact h (nsmul_zero n)

theorem two_pt {A : K} (h2 : (2 : K) ≠ 0) {P : MPoint A} (h : P ≠ 0) (h0 : 2 • P = 0) :
    ∃ e k, P = (.some e 0 k : MPoint A) := by
  obtain ⟨x, y, k, rfl⟩ := exists_some h
  rw [two_nsmul, add_self_iff h2 h] at h0
  simp only [yc] at h0
  subst h0
  exact ⟨x, k, rfl⟩

theorem facPts_of {E : Crv K} (hE : E.Good) {p q : MPoint E.A} (hb : IsBasis 8 p q) :
    ∃ e L m w, FacPts E p q e L m w := by
  have ne : ∀ a b : Int, ¬ ((8 : Int) ∣ a ∧ (8 : Int) ∣ b) → a • p + b • q ≠ 0 := fun a b h h0 => h ((hb a b).mp h0)
  have p4 : 4 • p ≠ 0 := by
    have := ne 4 0 (by omega)
    simpa [zero_zsmul, ← natCast_zsmul] using this
  have q4 : 4 • q ≠ 0 := by
    have := ne 0 4 (by omega)
    simpa [zero_zsmul, ← natCast_zsmul] using this
  have e4 : (4 • p : MPoint E.A) ≠ 4 • q := by
    intro h
    apply ne 4 (-4) (by omega)
    rw [neg_zsmul, show (4 : Int) = ((4 : Nat) : Int) from rfl, natCast_zsmul, natCast_zsmul, h, add_neg_cancel]
  have f : ∀ r : MPoint E.A, 4 • r = 2 • (2 • r) := fun r => by rw [← mul_nsmul]
  have f8 : ∀ r : MPoint E.A, 8 • r = 2 • (4 • r) := fun r => by rw [← mul_nsmul]
  obtain ⟨e, k, he⟩ := two_pt hE.two p4 (by rw [← f8]; exact hb.nsmul_left)
  obtain ⟨e', k', he'⟩ := two_pt hE.two q4 (by rw [← f8]; exact hb.nsmul_right)
  rw [f] at p4 q4
  obtain ⟨t, w, kt, ht⟩ := exists_some (ne_of_nsmul p4)
  obtain ⟨t', w', kt', ht'⟩ := exists_some (ne_of_nsmul q4)
  have hT : 2 • (Point.some t w kt : MPoint E.A) = .some e 0 k := by rw [← ht, ← f, he]
  have hT' : 2 • (Point.some t' w' kt' : MPoint E.A) = .some e' 0 k' := by rw [← ht', ← f, he']
  have hne : e ≠ e' := by
    rintro rfl
    exact e4 (by rw [he, he'])
  obtain ⟨hf, h1, h3⟩ := fac_of hE.two hT hT' hne rfl
  obtain ⟨hw, hL, -, -⟩ := four_tangent hE.two hT
  obtain ⟨hw', hL', -, -⟩ := four_tangent hE.two hT'
  generalize (t - e') / (t' - e') = m at *
  have et : e + (t - e) = t := by ring
  have hL0 := hf.nL
  have hq := hf.nq
  refine ⟨e, t - e, m, w, hf, hw, ?_, ?_, ⟨t', w', kt', ht', ?_⟩, ⟨k, he⟩, ⟨e', k', he', ?_⟩, ?_⟩
  · rw [et]; exact curve_eq kt
  · rw [ht]; exact pt_congr et.symm rfl
  · have hm1 : 1 - m ≠ 0 := fun h0 => hq (by linear_combination (1 + m) * h0)
    rw [gcs, div_mul_eq_mul_div, div_eq_iff hL0]
    apply mul_left_cancel₀ hm1
    linear_combination h1 + h3
  · rw [gcs, div_mul_eq_mul_div, div_eq_iff hL0]
    linear_combination h1
  · intro a b ha hb'
    rw [ht] at ha
    rw [ht'] at hb'
    rw [submatrix_eq hE ha hT, submatrix_eq hE hb' hT']
    exact subOK_of hE.two hf.nL hL' hf.nm hf.nq h1 h3

namespace FacPts
variable {E : Crv K} {p q : MPoint E.A} {e L m w : K} (h : FacPts E p q e L m w)
include h

theorem onC (r : MPoint E.A) : OnC m (U0 e L r) (U1 e L m r) (UY m w r) := by
  rcases r with _ | ⟨x, y, k⟩
  · simp only [OnC, U0, U1, UY]; ring
  · exact h.fac.onC h.yT h.cT (curve_eq k)

theorem dbl (r : MPoint E.A) : ∃ c : K, c ≠ 0 ∧
    gd m (U0 e L r) (U1 e L m r) = (c * U0 e L (2 • r), c * U1 e L m (2 • r)) ∧
      gy m (U0 e L r) (U1 e L m r) (UY m w r) = c ^ 2 * UY m w (2 • r) := by
  rcases r with _ | ⟨x, y, k⟩
  · have e0 : 2 • (Point.zero : MPoint E.A) = .zero := nsmul_zero 2
    have hm := h.fac.nm
    have hp := h.fac.np
    have hq := h.fac.nq
    rw [e0]
    refine ⟨2, h.fac.two, ?_, ?_⟩
    · simp only [U0, U1, gd, Prod.mk.injEq]
      constructor
      · field_simp; ring
      · field_simp; ring
    · simp [U0, U1, UY, gy]
  · by_cases h2 : 2 • (Point.some x y k : MPoint E.A) = 0
    · have hy : y = 0 := by
        rw [two_nsmul, add_self_iff h.fac.two (by rintro ⟨⟩)] at h2
        exact h2
      subst hy
      obtain ⟨c, hc, e1⟩ := h.fac.dbl_two h.yT h.cT (curve_eq k)
      rw [h2]
      refine ⟨c, hc, e1, ?_⟩
      have e2 : UY m w (Point.some x 0 k : MPoint E.A) = 0 := by simp [UY, gcy]
      have e3 : UY m w (0 : MPoint E.A) = 0 := rfl
      rw [e2, e3, gy]; ring
    · obtain ⟨x2, y2, k2, h2⟩ := exists_some h2
      rw [h2]
      exact h.fac.dbl h.yT h2

theorem nz (r : MPoint E.A) : ¬ (U0 e L r = 0 ∧ U1 e L m r = 0) := by
  rintro ⟨h0, h1⟩
  rcases r with _ | ⟨x, y, k⟩
  · exact h.fac.nm h1
  · simp only [U0, U1] at h0 h1
    have := (mul_eq_zero.mp h1).resolve_left h.fac.nm
    exact h.fac.two (by linear_combination this - h0)

/-- The coordinates determine the point up to sign. -/
theorem inj {r s : MPoint E.A} (hrs : U0 e L r * U1 e L m s = U1 e L m r * U0 e L s) : r = s ∨ r = -s := by
  have hm := h.fac.nm
  have h2 := h.fac.two
  rcases r with _ | ⟨x, y, k⟩ <;> rcases s with _ | ⟨x', y', k'⟩
  · exact Or.inl rfl
  · simp only [U0, U1] at hrs
    exact absurd (mul_left_cancel₀ hm (by linear_combination hrs : m * 2 = m * 0)) h2
  · simp only [U0, U1] at hrs
    exact absurd (mul_left_cancel₀ hm (by linear_combination -hrs : m * 2 = m * 0)) h2
  · simp only [U0, U1] at hrs
    have e1 : gcs e L x = gcs e L x' := by
      apply mul_left_cancel₀ (mul_ne_zero h2 hm)
      linear_combination hrs
    have e2 : x = x' := by
      have hL := h.fac.nL
      simp only [gcs] at e1
      rw [div_left_inj' hL] at e1
      linear_combination e1
    subst e2
    have e3 : (y - y') * (y + y') = 0 := by linear_combination curve_eq k - curve_eq k'
    rcases mul_eq_zero.mp e3 with e4 | e4
    · have : y = y' := by linear_combination e4
      subst this
      exact Or.inl rfl
    · right
      obtain ⟨h', e5⟩ := neg_pt k'
      rw [e5]
      have : y = -y' := by linear_combination e4
      subst this
      rfl

theorem two_fp : 2 • (4 • p) = 0 := by
  obtain ⟨k, hk⟩ := h.fp
  rw [hk, two_nsmul, add_self_iff h.fac.two (by rintro ⟨⟩)]; rfl

theorem two_fq : 2 • (4 • q) = 0 := by
  obtain ⟨x, k, hk, -⟩ := h.fq
  rw [hk, two_nsmul, add_self_iff h.fac.two (by rintro ⟨⟩)]; rfl

/-- The third point of order two. -/
theorem fpq : ∃ x k, 4 • p + 4 • q = (.some x 0 k : MPoint E.A) ∧ gcs e L x * (1 + m ^ 2) = 1 - m ^ 2 := by
  obtain ⟨k, hp⟩ := h.fp
  obtain ⟨x, k', hq, hs⟩ := h.fq
  have hp2 := h.fac.np
  have hq2 := h.fac.nq
  have hL := h.fac.nL
  have hx : x = e + L * gcs e L x := by rw [gcs, mul_div_cancel₀ _ hL]; ring
  have hne : e ≠ x := by
    intro h0
    rw [← h0, gcs, sub_self, zero_div, zero_mul] at hs
    exact hp2 hs.symm
  obtain ⟨k3, e3⟩ := add_gen (h1 := k) (h2 := k') (l := 0) hne (by ring)
  rw [hp, hq, e3]
  have hs0 : gcs e L x ≠ 0 := fun h0 => by rw [h0, zero_mul] at hs; exact hp2 hs.symm
  have hc := h.fac.curve (curve_eq k')
  have h3 : (1 + m ^ 2) * (1 - m ^ 2) * gcs e L x ^ 2 - 2 * (1 + m ^ 4) * gcs e L x + (1 + m ^ 2) * (1 - m ^ 2) = 0 := by
    apply mul_left_cancel₀ hs0
    apply mul_left_cancel₀ (pow_ne_zero 3 hL)
    linear_combination -hc
  have hy : (0 : K) * (e - (0 * 0 - E.A - e - x)) - 0 = 0 := by ring
  obtain ⟨k4, e4⟩ := pt_congr (h := k3) rfl hy
  refine ⟨_, k4, e4, ?_⟩
  have hcub := h.fac.cub
  have e5 : gcs e L (0 * 0 - E.A - e - x) * L = -(3 * e + E.A) - L * gcs e L x := by
    rw [gcs, div_mul_cancel₀ _ hL]; linear_combination -hx
  apply mul_right_cancel₀ hL
  apply mul_left_cancel₀ hq2
  linear_combination (1 + m ^ 2) * (1 - m ^ 2) * e5 - hcub - (1 + m ^ 2) * L * hs

theorem eq_of_mul {r s : MPoint E.A} (hs : 2 • s = 0) (hrs : U0 e L r * U1 e L m s = U1 e L m r * U0 e L s) :
    r = s := by
  rcases h.inj hrs with h1 | h1
  · exact h1
  · rw [two_nsmul] at hs
    rw [h1]; exact neg_eq_of_add_eq_zero_left hs

/-- Where the second dual coordinate vanishes. -/
theorem beta {r : MPoint E.A} (hr : U0 e L r ^ 2 - U1 e L m r ^ 2 = 0) : 2 • r = 4 • q := by
  obtain ⟨c, hc, h1, -⟩ := h.dbl r
  obtain ⟨x, k, hq, hs⟩ := h.fq
  refine h.eq_of_mul h.two_fq ?_
  have a := congrArg Prod.fst h1
  have b := congrArg Prod.snd h1
  have hm := h.fac.nm
  simp only [gd, hr] at a b
  have e1 : U1 e L m (2 • r) * m = U0 e L (2 • r) := by
    apply mul_left_cancel₀ hc
    rw [← a, ← mul_assoc, ← b, div_mul_cancel₀ _ hm]
    simp
  rw [hq, show U0 e L (Point.some x 0 k : MPoint E.A) = gcs e L x - 1 from rfl,
    show U1 e L m (Point.some x 0 k : MPoint E.A) = m * (gcs e L x + 1) from rfl]
  linear_combination -m * (gcs e L x + 1) * e1 - U1 e L m (2 • r) * hs

/-- Where the first dual coordinate vanishes. -/
theorem alpha {r : MPoint E.A} (hr : U0 e L r ^ 2 + U1 e L m r ^ 2 = 0) : 2 • r = 4 • p + 4 • q := by
  obtain ⟨c, hc, h1, -⟩ := h.dbl r
  obtain ⟨x, k, hq, hs⟩ := h.fpq
  refine h.eq_of_mul (by rw [nsmul_add, h.two_fp, h.two_fq, add_zero]) ?_
  have a := congrArg Prod.fst h1
  have b := congrArg Prod.snd h1
  have hm := h.fac.nm
  simp only [gd, hr] at a b
  have e1 : U1 e L m (2 • r) * m = -U0 e L (2 • r) := by
    apply mul_left_cancel₀ hc
    rw [mul_neg, ← a, ← mul_assoc, ← b, div_mul_cancel₀ _ hm]
    simp
  rw [hq, show U0 e L (Point.some x 0 k : MPoint E.A) = gcs e L x - 1 from rfl,
    show U1 e L m (Point.some x 0 k : MPoint E.A) = m * (gcs e L x + 1) from rfl]
  linear_combination m * (gcs e L x + 1) * e1 - U1 e L m (2 • r) * hs

/-- Where the third dual coordinate vanishes. -/
theorem gamma {r : MPoint E.A} (hr : U0 e L r * U1 e L m r = 0) : 2 • r = 4 • p := by
  obtain ⟨c, hc, h1, -⟩ := h.dbl r
  obtain ⟨k, hp⟩ := h.fp
  refine h.eq_of_mul h.two_fp ?_
  have a := congrArg Prod.fst h1
  have b := congrArg Prod.snd h1
  have hm := h.fac.nm
  have hq2 := h.fac.nq
  have hp2 := h.fac.np
  simp only [gd] at a b
  have hab : (U0 e L r ^ 2 - U1 e L m r ^ 2) ^ 2 = (U0 e L r ^ 2 + U1 e L m r ^ 2) ^ 2 := by
    linear_combination (-4 * U0 e L r * U1 e L m r) * hr
  rw [hab] at a b
  have e0 : gcs e L e = 0 := by rw [gcs, sub_self, zero_div]
  have e1 : U0 e L (2 • r) * m + U1 e L m (2 • r) = 0 := by
    apply mul_left_cancel₀ hc
    have : c * (U0 e L (2 • r) * m + U1 e L m (2 • r)) = c * U0 e L (2 • r) * m + c * U1 e L m (2 • r) := by ring
    rw [this, ← a, ← b]
    field_simp
    ring
  rw [hp, show U0 e L (Point.some e 0 k : MPoint E.A) = gcs e L e - 1 from rfl,
    show U1 e L m (Point.some e 0 k : MPoint E.A) = m * (gcs e L e + 1) from rfl, e0]
  linear_combination e1

/-- Adding the point of order four. -/
theorem add (r : MPoint E.A) :
    (U0 e L r ^ 2 - U1 e L m r ^ 2) * (U0 e L (r + 2 • p) * U1 e L m (r + 2 • p)) * (1 + m ^ 2) =
      2 * m * UY m w r * (U0 e L (r + 2 • p) ^ 2 + U1 e L m (r + 2 • p) ^ 2) ∧
    (U0 e L r ^ 2 + U1 e L m r ^ 2) * (U0 e L (r + 2 • p) * U1 e L m (r + 2 • p)) * (1 - m ^ 2) =
      -2 * m * UY m w r * (U0 e L (r + 2 • p) ^ 2 - U1 e L m (r + 2 • p) ^ 2) := by
  obtain ⟨kT, hT⟩ := h.tp
  have hf : 4 • p = 2 • (2 • p) := by rw [← mul_nsmul]
  have hcT : gcs e L (e + L) = 1 := by rw [gcs, add_sub_cancel_left, div_self h.fac.nL]
  have hce : gcs e L e = 0 := by rw [gcs, sub_self, zero_div]
  rw [hT] at hf ⊢
  rcases r with _ | ⟨x, y, k⟩
  · have e0 : (Point.zero : MPoint E.A) + .some (e + L) w kT = .some (e + L) w kT := zero_add _
    rw [e0]
    simp only [U0, U1, UY, hcT]
    constructor <;> ring
  · by_cases hx : gcs e L x = 1
    · have hx' : x = e + L := by
        rw [gcs, div_eq_iff h.fac.nL] at hx
        linear_combination hx
      subst hx'
      have e3 : (y - w) * (y + w) = 0 := by linear_combination curve_eq k - curve_eq kT
      rcases mul_eq_zero.mp e3 with e4 | e4
      · have : y = w := by linear_combination e4
        subst this
        obtain ⟨k4, h4⟩ := h.fp
        have e5 : (Point.some (e + L) y k : MPoint E.A) + .some (e + L) y kT = .some e 0 k4 := by
          rw [← h4, hf, two_nsmul]
        have hy : gcy m y y = 2 * m ^ 2 := by rw [gcy, mul_div_assoc, div_self h.yT, mul_one]
        rw [e5]
        simp only [U0, U1, UY, hcT, hce, hy]
        constructor <;> ring
      · have : y = -w := by linear_combination e4
        subst this
        have e5 : (Point.some (e + L) (-w) k : MPoint E.A) + .some (e + L) w kT = .zero := add_opp (by ring)
        have hy : gcy m w (-w) = -2 * m ^ 2 := by
          rw [gcy, mul_neg, neg_div, mul_div_assoc, div_self h.yT]; ring
        rw [e5]
        simp only [U0, U1, UY, hcT, hy]
        constructor <;> ring
    · have h3 : (Point.some x y k : MPoint E.A) + .some (e + L) w kT ≠ 0 := by
        intro h0
        apply hx
        have : (Point.some x y k : MPoint E.A) = -.some (e + L) w kT := eq_neg_of_add_eq_zero_left h0
        obtain ⟨k', e5⟩ := neg_pt kT
        rw [e5] at this
        rw [(Point.some.inj this).1, hcT]
      obtain ⟨x3, y3, k3, h3⟩ := exists_some h3
      rw [h3]
      exact h.fac.add h.yT h.cT hx h3

theorem eqP : (U0 e L p ^ 2 + U1 e L m p ^ 2) ^ 2 * (1 - m ^ 2) + (U0 e L p ^ 2 - U1 e L m p ^ 2) ^ 2 * (1 + m ^ 2) = 0 := by
  obtain ⟨kT, hT⟩ := h.tp
  obtain ⟨c, hc, h1, -⟩ := h.dbl p
  have h2 := congrArg Prod.fst h1
  have e1 : U0 e L (2 • p) = 0 := by
    rw [hT]
    simp only [U0, gcs, add_sub_cancel_left, div_self h.fac.nL, sub_self]
  simp only [gd, e1, mul_zero] at h2
  have hp := h.fac.np
  have hq := h.fac.nq
  field_simp at h2
  linear_combination h2

theorem eqQ : (2 * (U0 e L q * U1 e L m q)) ^ 2 * (1 + m ^ 2) = -2 * m * (U0 e L q ^ 2 + U1 e L m q ^ 2) ^ 2 := by
  obtain ⟨x, y, k, hq0, hs⟩ := h.tq
  obtain ⟨c, hc, h1, -⟩ := h.dbl q
  have h2 := congrArg Prod.fst h1
  have h3 := congrArg Prod.snd h1
  have e1 : U0 e L (2 • q) + U1 e L m (2 • q) = 0 := by
    rw [hq0]; simp only [U0, U1]; linear_combination hs
  have hp := h.fac.np
  have hq := h.fac.nq
  have hm := h.fac.nm
  have h4 : (gd m (U0 e L q) (U1 e L m q)).1 + (gd m (U0 e L q) (U1 e L m q)).2 = 0 := by
    rw [h2, h3]; linear_combination c * e1
  simp only [gd] at h4
  have hm1 : 1 - m ≠ 0 := fun h0 => hq (by linear_combination (1 + m) * h0)
  generalize U0 e L q = u at *
  generalize U1 e L m q = v at *
  field_simp at h4
  apply mul_left_cancel₀ hm1
  linear_combination h4

theorem coords {a : Pt K} {r : MPoint E.A} (ha : PRep a r) : ∃ c : K, c ≠ 0 ∧
    ku0 e L (fixXZ a.X a.Z).1 (fixXZ a.X a.Z).2 = c * U0 e L r ∧
    ku1 e L m (fixXZ a.X a.Z).1 (fixXZ a.X a.Z).2 = c * U1 e L m r := by
  rcases r with _ | ⟨x, y, k⟩
  · have hz : a.Z = 0 := ha
    by_cases hx : a.X = 0
    · refine ⟨1, one_ne_zero, ?_⟩
      simp [fixXZ, hz, hx, cond', ku0, ku1, U0, U1]
    · refine ⟨a.X, hx, ?_⟩
      simp [fixXZ, hz, hx, cond', ku0, ku1, U0, U1, mul_comm]
  · obtain ⟨hz, hx, -⟩ := ha
    have hL := h.fac.nL
    rw [fixXZ_of hz]
    refine ⟨a.Z * L, mul_ne_zero hz hL, ?_, ?_⟩
    · simp only [ku0, U0, gcs, hx]; field_simp; ring
    · simp only [ku1, U1, gcs, hx]; field_simp; ring

omit h in
/-- Sums with a point of order two. -/
theorem add_pt {x y t : K} {k : (mont E.A).Nonsingular x y} {k' : (mont E.A).Nonsingular t 0} (hne : x - t ≠ 0) :
    ∃ x3 y3 k3, (Point.some x y k : MPoint E.A) + .some t 0 k' = .some x3 y3 k3 ∧
      x3 * (x - t) ^ 2 = y ^ 2 - (E.A + x + t) * (x - t) ^ 2 ∧ y3 * (x - t) = y * (x - x3) - y * (x - t) := by
  have e1 : y / (x - t) * (t - x) = 0 - y := by field_simp; ring
  obtain ⟨k3, e3⟩ := add_gen (h1 := k) (h2 := k') (sub_ne_zero.mp hne) e1
  refine ⟨_, _, k3, e3, ?_, ?_⟩
  · field_simp
    ring
  · field_simp

/-- Adding the first point of order two. -/
theorem add_fp (r : MPoint E.A) : ∃ c : K, c ≠ 0 ∧ U0 e L (r + 4 • p) = -c * U0 e L r ∧
    U1 e L m (r + 4 • p) = c * U1 e L m r ∧ UY m w (r + 4 • p) = -c ^ 2 * UY m w r := by
  obtain ⟨k4, h4⟩ := h.fp
  have e0 : gcs e L e = 0 := by rw [gcs, sub_self, zero_div]
  have hL := h.fac.nL
  have h2p := h.two_fp
  rw [h4] at h2p ⊢
  have y0 : gcy m w 0 = 0 := by simp [gcy]
  rcases r with _ | ⟨x, y, k⟩
  · rw [show (Point.zero : MPoint E.A) + .some e 0 k4 = .some e 0 k4 from zero_add _]
    refine ⟨1, one_ne_zero, ?_, ?_, ?_⟩ <;> simp only [U0, U1, UY, e0, y0] <;> ring
  · by_cases hx : x - e = 0
    · have hx : x = e := sub_eq_zero.mp hx
      subst hx
      have hy : y = 0 := by
        have e1 := curve_eq k
        have : y * y = 0 := by linear_combination e1 + h.fac.root
        exact mul_self_eq_zero.mp this
      subst hy
      rw [two_nsmul] at h2p
      rw [h2p]
      refine ⟨1, one_ne_zero, ?_, ?_, ?_⟩
      · rw [show U0 x L (0 : MPoint E.A) = 1 from rfl]; simp only [U0, e0]; ring
      · rw [show U1 x L m (0 : MPoint E.A) = m from rfl]; simp only [U1, e0]; ring
      · rw [show UY m w (0 : MPoint E.A) = 0 from rfl]; simp only [UY, y0]; ring
    · obtain ⟨x3, y3, k3, e3, e5, e6⟩ := add_pt (k := k) (k' := k4) hx
      rw [e3]
      have hs : gcs e L x ≠ 0 := div_ne_zero hx hL
      have c1 := curve_eq k
      have hxs : x - e = L * gcs e L x := by rw [gcs, mul_div_cancel₀ _ hL]
      have hx3 : x3 = e + L * gcs e L x3 := by rw [gcs, mul_div_cancel₀ _ hL]; ring
      have e7 : gcs e L x3 * gcs e L x = 1 := by
        apply mul_left_cancel₀ (pow_ne_zero 2 hx)
        apply mul_left_cancel₀ (pow_ne_zero 2 hL)
        have : L ^ 2 * ((x - e) ^ 2 * (gcs e L x3 * gcs e L x)) = (x3 - e) * (x - e) ^ 2 * (x - e) := by
          rw [gcs, gcs]; field_simp
        rw [this]
        linear_combination (x - e) * e5 + (x - e) * c1 + (x - e) * h.fac.root + (x - e) ^ 2 * h.fac.der
      have e8 : gcs e L x3 = (gcs e L x)⁻¹ := eq_inv_of_mul_eq_one_left e7
      have e9 : y3 = -((gcs e L x)⁻¹) ^ 2 * y := by
        rw [← e8]
        apply mul_right_cancel₀ hx
        rw [e6]
        have : x - x3 = L * gcs e L x - L * gcs e L x3 := by linear_combination hxs - hx3
        rw [this, hxs]
        linear_combination (y * L * gcs e L x3) * e7
      refine ⟨(gcs e L x)⁻¹, inv_ne_zero hs, ?_, ?_, ?_⟩
      · simp only [U0, e8]; field_simp; ring
      · simp only [U1, e8]; field_simp; ring
      · simp only [UY, e9, gcy]; ring

/-- Adding the second point of order two. -/
theorem add_fq (r : MPoint E.A) : ∃ c : K, c ≠ 0 ∧ U0 e L (r + 4 • q) = c * U1 e L m r ∧
    U1 e L m (r + 4 • q) = c * U0 e L r ∧ UY m w (r + 4 • q) = -c ^ 2 * UY m w r := by
  obtain ⟨t, k4, h4, ht⟩ := h.fq
  have hL := h.fac.nL
  have hm := h.fac.nm
  have h2 := h.fac.two
  have hp := h.fac.np
  have hq := h.fac.nq
  have h2p := h.two_fq
  rw [h4] at h2p ⊢
  have y0 : gcy m w 0 = 0 := by simp [gcy]
  have ht' : gcs e L t = (1 + m ^ 2) / (1 - m ^ 2) := by rw [eq_div_iff hq, ht]
  rcases r with _ | ⟨x, y, k⟩
  · rw [show (Point.zero : MPoint E.A) + .some t 0 k4 = .some t 0 k4 from zero_add _]
    refine ⟨2 * m / (1 - m ^ 2), div_ne_zero (mul_ne_zero h2 hm) hq, ?_, ?_, ?_⟩ <;>
      simp only [U0, U1, UY, ht', y0] <;> field_simp <;> ring
  · by_cases hx : x - t = 0
    · have hx : x = t := sub_eq_zero.mp hx
      subst hx
      have hy : y = 0 := by
        have e1 := curve_eq k
        have e2 := curve_eq k4
        have : y * y = 0 := by linear_combination e1 - e2
        exact mul_self_eq_zero.mp this
      subst hy
      rw [two_nsmul] at h2p
      rw [h2p]
      refine ⟨(1 - m ^ 2) / (2 * m), div_ne_zero hq (mul_ne_zero h2 hm), ?_, ?_, ?_⟩
      · rw [show U0 e L (0 : MPoint E.A) = 1 from rfl]; simp only [U1, ht']; field_simp; ring
      · rw [show U1 e L m (0 : MPoint E.A) = m from rfl]; simp only [U0, ht']; field_simp; ring
      · rw [show UY m w (0 : MPoint E.A) = 0 from rfl]; simp only [UY, y0]; ring
    · obtain ⟨x3, y3, k3, e3, e5, e6⟩ := add_pt (k := k) (k' := k4) hx
      rw [e3]
      have c1 := h.fac.curve (curve_eq k)
      have cub := h.fac.cub
      have hxs : x = e + L * gcs e L x := by rw [gcs, mul_div_cancel₀ _ hL]; ring
      have hts : t = e + L * gcs e L t := by rw [gcs, mul_div_cancel₀ _ hL]; ring
      have hx3 : x3 = e + L * gcs e L x3 := by rw [gcs, mul_div_cancel₀ _ hL]; ring
      simp only [U0, U1, UY]
      rw [ht'] at hts
      generalize gcs e L x = s at *
      generalize gcs e L x3 = s3 at *
      have hd : (1 - m ^ 2) * s - (1 + m ^ 2) ≠ 0 := by
        intro h0
        apply hx
        rw [hxs, hts]
        field_simp
        linear_combination L * h0
      have hxt : (x - t) * (1 - m ^ 2) = L * ((1 - m ^ 2) * s - (1 + m ^ 2)) := by
        rw [hxs, hts]; field_simp; ring
      obtain ⟨W, hW⟩ : ∃ W, W = (1 - m ^ 2) * s - (1 + m ^ 2) := ⟨_, rfl⟩
      rw [← hW] at hd hxt
      have hA : (E.A + e + x + t) * ((1 + m ^ 2) * (1 - m ^ 2)) = L * (1 - m ^ 2) * ((1 + m ^ 2) * s - (1 - m ^ 2)) := by
        have htt : t * (1 - m ^ 2) = e * (1 - m ^ 2) + L * (1 + m ^ 2) := by
          rw [hts]; field_simp
        rw [hxs]
        linear_combination cub + (1 + m ^ 2) * htt
      have c2 : y ^ 2 * ((1 + m ^ 2) * (1 - m ^ 2)) = L ^ 3 * (s * ((1 + m ^ 2) * s - (1 - m ^ 2)) * W) := by
        rw [c1, hW]; ring
      have hb : L ^ 3 * s3 * W ^ 2 = (1 - m ^ 2) ^ 2 * y ^ 2 - (E.A + e + x + t) * (L ^ 2 * W ^ 2) := by
        have e10 : (x - t) ^ 2 * (1 - m ^ 2) ^ 2 = L ^ 2 * W ^ 2 := by rw [← mul_pow, hxt, mul_pow]
        rw [hx3] at e5
        rw [← e10]
        linear_combination (1 - m ^ 2) ^ 2 * e5 - L * s3 * e10
      have e7 : s3 * W = (1 + m ^ 2) * s - (1 - m ^ 2) := by
        apply mul_left_cancel₀ (mul_ne_zero (mul_ne_zero (pow_ne_zero 3 hL) (mul_ne_zero hq hp)) hd)
        have e10 : L ^ 3 * ((1 - m ^ 2) * (1 + m ^ 2)) * W * (s3 * W) =
            (1 - m ^ 2) ^ 2 * (y ^ 2 * ((1 + m ^ 2) * (1 - m ^ 2))) -
              (E.A + e + x + t) * ((1 + m ^ 2) * (1 - m ^ 2)) * (L ^ 2 * W ^ 2) := by
          linear_combination (1 + m ^ 2) * (1 - m ^ 2) * hb
        rw [e10, c2, hA, hW]
        ring
      have e9 : y3 * W ^ 2 = -(2 * m) ^ 2 * y := by
        have e10 : y3 * W = y * (1 - m ^ 2) * (s - s3) - y * W := by
          apply mul_left_cancel₀ hL
          rw [hx3] at e6
          linear_combination (1 - m ^ 2) * e6 - (y3 + y) * hxt + y * (1 - m ^ 2) * hxs
        have e11 : y3 * W ^ 2 = y * (1 - m ^ 2) * (s * W - s3 * W) - y * W ^ 2 := by linear_combination W * e10
        rw [e11, e7, hW]
        ring
      refine ⟨2 * m / W, div_ne_zero (mul_ne_zero h2 hm) hd, ?_, ?_, ?_⟩
      · rw [div_mul_eq_mul_div, eq_div_iff hd]; linear_combination e7 - hW
      · rw [div_mul_eq_mul_div, eq_div_iff hd]; linear_combination m * e7 + m * hW
      · have e10 : y3 = -(2 * m / W) ^ 2 * y := by
          rw [div_pow, neg_mul, div_mul_eq_mul_div, ← neg_div, eq_div_iff (pow_ne_zero 2 hd), e9]
          ring
        rw [e10, gcy, gcy]; ring

omit [DecidableEq K] h in
theorem neg (r : MPoint E.A) : U0 e L (-r) = U0 e L r ∧ U1 e L m (-r) = U1 e L m r ∧ UY m w (-r) = -UY m w r := by
  rcases r with _ | ⟨x, y, k⟩
  · exact ⟨rfl, rfl, by rw [show -(Point.zero : MPoint E.A) = .zero from rfl]; simp [UY]⟩
  · obtain ⟨k', e1⟩ := neg_pt k
    rw [e1]
    refine ⟨rfl, rfl, ?_⟩
    simp only [UY, gcy]; ring

end FacPts
end
end Festa
