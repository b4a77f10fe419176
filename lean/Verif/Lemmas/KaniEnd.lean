import Verif.Lemmas.ThetaLine
import Verif.Lemmas.KaniSplit
/-! The first curve of the diamond: the points that it puts into the kernel. -/
namespace Festa
open WeierstrassCurve.Affine Polynomial Filter

variable {L : Type*} [Field L] [DecidableEq L]
  {E : EProd L} {p1 q1 : MPoint E.E1.A} {p2 q2 : MPoint E.E2.A} {n : ℕ} {O T1 T2 : ThPt L}
  {ε l m w ε' l' m' w' : L} {A0 AF : L}
  {β : MPoint A0 →+ MPoint E.E1.A} {α : MPoint A0 →+ MPoint AF} {γ : MPoint AF →+ MPoint E.E2.A}
  {d1 dA e m1 m2 g : ℕ} {P Q : MPoint A0}

/-- The first curve of the diamond. -/
def curveF (β : MPoint A0 →+ MPoint E.E1.A) (α : MPoint A0 →+ MPoint AF) (γ : MPoint AF →+ MPoint E.E2.A) (m1 dA m2 : ℕ) :
    MPoint A0 →+ MPoint E.E1.A × MPoint E.E2.A :=
  ((nsmulAddMonoidHom (m1 * dA)).comp β).prod (-((nsmulAddMonoidHom m2).comp (γ.comp α)))

theorem Diamond.graph' (_dia : Diamond β α γ d1 dA e m1 m2 n g P Q) (kp : 4 • (p1, p2) = (β P, g • γ (α P)))
    (kq : 4 • (q1, q2) = (β Q, g • γ (α Q))) (x y : ℤ) :
    (β (x • P + y • Q), g • γ (α (x • P + y • Q))) = x • 4 • (p1, p2) + y • 4 • (q1, q2) := by
  rw [kp, kq]
  refine Prod.ext ?_ ?_
  · change β (x • P + y • Q) = x • β P + y • β Q
    rw [map_add, map_zsmul, map_zsmul]
  · change g • γ (α (x • P + y • Q)) = x • g • γ (α P) + y • g • γ (α Q)
    rw [map_add, map_zsmul, map_zsmul, map_add, map_zsmul, map_zsmul, nsmul_add, smul_comm g x, smul_comm g y]

/-- The points that the first curve puts into the kernel. -/
theorem Diamond.curveF_mem (dia : Diamond β α γ d1 dA e m1 m2 n g P Q) (T : MPoint A0) (x y : ℤ) (k : MPoint A0) (hk : α k = 0)
    (hT : T = k + (x • P + y • Q)) : ∃ x y : ℤ, curveF β α γ m1 dA m2 T = (β (x • P + y • Q), g • γ (α (x • P + y • Q))) := by
  refine ⟨(m1 * dA : ℕ) * x, (m1 * dA : ℕ) * y, ?_⟩
  change ((m1 * dA) • β T, -(m2 • γ (α T))) = (β (((m1 * dA : ℕ) * x) • P + ((m1 * dA : ℕ) * y) • Q),
      g • γ (α (((m1 * dA : ℕ) * x) • P + ((m1 * dA : ℕ) * y) • Q)))
  have hr := dia.combo_tors x y
  have e0 : (((m1 * dA : ℕ) : ℤ) * x) • P + (((m1 * dA : ℕ) : ℤ) * y) • Q = (m1 * dA) • (x • P + y • Q) := by
    rw [mul_zsmul, mul_zsmul, ← zsmul_add, natCast_zsmul]
  rw [e0, hT]
  generalize x • P + y • Q = r at hr
  refine Prod.ext ?_ ?_
  · change (m1 * dA) • β (k + r) = β ((m1 * dA) • r)
    rw [map_add, nsmul_add, ← map_nsmul, ← map_nsmul, mul_nsmul', dia.hα.kill _ hk, nsmul_zero, map_zero, zero_add]
  · change -(m2 • γ (α (k + r))) = g • γ (α ((m1 * dA) • r))
    rw [map_add, hk, zero_add, ← map_nsmul, ← map_nsmul, ← map_neg, ← map_neg, ← map_nsmul, ← map_nsmul]
    congr 2
    have := Diamond.tors_zsmul hr (k := -(m2 : ℤ)) (l := g * (m1 * dA)) (by
      obtain ⟨c, hc⟩ := dia.g_neg
      exact ⟨-c, by linear_combination -hc⟩)
    rw [neg_zsmul, natCast_zsmul] at this
    rw [this, ← mul_nsmul', ← natCast_zsmul]
    push_cast
    rfl

end Festa
