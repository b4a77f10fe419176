import Verif.Lemmas.KaniDiamond
/-! The two curves of the diamond are sent to the two components of the chain. -/
namespace Festa
open WeierstrassCurve.Affine Polynomial Filter
variable {L : Type*} [Field L] [DecidableEq L] [IsAlgClosed L] [RootOps L]
  {E : EProd L} {p1 q1 : MPoint E.E1.A} {p2 q2 : MPoint E.E2.A} {n : ℕ} {O T1 T2 : ThPt L}
  {ε l m w ε' l' m' w' : L} {M : Mat4 L} {o o' : L × L} {U V : MPoint E.E1.A × MPoint E.E2.A → L × L} {A0 AF : L}
  {β : MPoint A0 →+ MPoint E.E1.A} {α : MPoint A0 →+ MPoint AF} {γ : MPoint AF →+ MPoint E.E2.A}
  {d1 dA e m1 m2 g : ℕ} {P Q : MPoint A0}

omit [RootOps L] in
theorem Isg.tendsto_smul {A A' : L} {φ : MPoint A →+ MPoint A'} {d : ℕ} (h : Isg φ d) (h2 : (2 : L) ≠ 0)
    (hA : A' * A' ≠ 4) {k : ℕ} (hk : k ≠ 0) : Tendsto ((nsmulAddMonoidHom k).comp φ) cofinite cofinite :=
  (tendsto_hom (φ := nsmulAddMonoidHom (α := MPoint A') k) (torsion_finite h2 hA hk)).comp h.tendsto

omit [IsAlgClosed L] [RootOps L] in
theorem tendsto_neg_hom {A A' : L} {φ : MPoint A →+ MPoint A'} (h : Tendsto φ cofinite cofinite) : Tendsto (-φ) cofinite cofinite :=
  (Function.Injective.tendsto_cofinite (neg_injective (G := MPoint A'))).comp h

/-- The kernel of the chain is the graph of the diamond. -/
structure KaniData (E : EProd L) (p1 q1 : MPoint E.E1.A) (p2 q2 : MPoint E.E2.A) (n : ℕ) (O T1 T2 : ThPt L)
    (ε l m w ε' l' m' w' : L) (M : Mat4 L) (o o' : L × L) (U V : MPoint E.E1.A × MPoint E.E2.A → L × L) {A0 AF : L}
    (β : MPoint A0 →+ MPoint E.E1.A) (α : MPoint A0 →+ MPoint AF) (γ : MPoint AF →+ MPoint E.E2.A)
    (d1 dA e m1 m2 g : ℕ) (P Q : MPoint A0) : Prop where
  net : ThetaNet E p1 q1 p2 q2 n O T1 T2 ε l m w ε' l' m' w' M o o' U V
  dia : Diamond β α γ d1 dA e m1 m2 n g P Q
  g1 : E.E1.Good
  g2 : E.E2.Good
  three : 3 ≤ n
  f1 : FacPts E.E1 (2 ^ (n - 1) • p1) (2 ^ (n - 1) • q1) ε l m w
  f2 : FacPts E.E2 (2 ^ (n - 1) • p2) (2 ^ (n - 1) • q2) ε' l' m' w'
  kp : 4 • (p1, p2) = (β P, g • γ (α P))
  kq : 4 • (q1, q2) = (β Q, g • γ (α Q))

namespace KaniData
variable (h : KaniData E p1 q1 p2 q2 n O T1 T2 ε l m w ε' l' m' w' M o o' U V β α γ d1 dA e m1 m2 g P Q)
include h

omit [IsAlgClosed L] in
theorem graph (x y : ℤ) : (β (x • P + y • Q), g • γ (α (x • P + y • Q))) = x • 4 • (p1, p2) + y • 4 • (q1, q2) := by
  rw [h.kp, h.kq]
  refine Prod.ext ?_ ?_
  · change β (x • P + y • Q) = x • β P + y • β Q
    rw [map_add, map_zsmul, map_zsmul]
  · change g • γ (α (x • P + y • Q)) = x • g • γ (α P) + y • g • γ (α Q)
    rw [map_add, map_zsmul, map_zsmul, map_add, map_zsmul, map_zsmul, nsmul_add, smul_comm g x, smul_comm g y]

omit [IsAlgClosed L] in
theorem graph_mem (x y : ℤ) : (β (x • P + y • Q), g • γ (α (x • P + y • Q))) ∈ h.net.netU.ker ∧
    (β (x • P + y • Q), g • γ (α (x • P + y • Q))) ∈ h.net.netV.ker := by
  rw [h.graph]
  exact ⟨add_mem (zsmul_mem h.net.kerP.1 _) (zsmul_mem h.net.kerQ.1 _), add_mem (zsmul_mem h.net.kerP.2 _) (zsmul_mem h.net.kerQ.2 _)⟩

omit [IsAlgClosed L] in
theorem graph_of {x : MPoint E.E1.A × MPoint E.E2.A} (hU : x ∈ h.net.netU.ker) (hV : x ∈ h.net.netV.ker) :
    ∃ a b : ℤ, x = (β (a • P + b • Q), g • γ (α (a • P + b • Q))) := by
  obtain ⟨a, b, e⟩ := h.net.exact hU hV
  exact ⟨a, b, by rw [h.graph, e]⟩

omit [IsAlgClosed L] in
/-- The first curve. -/
theorem kerF (T : MPoint A0) (x y : ℤ) (k : MPoint A0) (hk : α k = 0) (hT : T = k + (x • P + y • Q)) :
    ((m1 * dA) • β T, -(m2 • γ (α T))) ∈ h.net.netU.ker ∧ ((m1 * dA) • β T, -(m2 • γ (α T))) ∈ h.net.netV.ker := by
  have e : ((m1 * dA) • β T, -(m2 • γ (α T))) = (β (((m1 * dA : ℕ) * x) • P + ((m1 * dA : ℕ) * y) • Q),
      g • γ (α (((m1 * dA : ℕ) * x) • P + ((m1 * dA : ℕ) * y) • Q))) := by
    have hr := h.dia.combo_tors x y
    have e0 : (((m1 * dA : ℕ) : ℤ) * x) • P + (((m1 * dA : ℕ) : ℤ) * y) • Q = (m1 * dA) • (x • P + y • Q) := by
      rw [mul_zsmul, mul_zsmul, ← zsmul_add, natCast_zsmul]
    rw [e0, hT]
    generalize x • P + y • Q = r at hr
    refine Prod.ext ?_ ?_
    · change (m1 * dA) • β (k + r) = β ((m1 * dA) • r)
      rw [map_add, nsmul_add, ← map_nsmul, ← map_nsmul, mul_nsmul', h.dia.hα.kill _ hk, nsmul_zero, map_zero, zero_add]
    · change -(m2 • γ (α (k + r))) = g • γ (α ((m1 * dA) • r))
      rw [map_add, hk, zero_add, ← map_nsmul, ← map_nsmul, ← map_neg, ← map_neg, ← map_nsmul, ← map_nsmul]
      congr 2
      have := Diamond.tors_zsmul hr (k := -(m2 : ℤ)) (l := g * (m1 * dA)) (by
        obtain ⟨c, hc⟩ := h.dia.g_neg
        exact ⟨-c, by linear_combination -hc⟩)
      rw [neg_zsmul, natCast_zsmul] at this
      rw [this, ← mul_nsmul', ← natCast_zsmul]
      push_cast
      rfl
  rw [e]
  exact h.graph_mem _ _

omit [IsAlgClosed L] in
/-- The second curve. -/
theorem kerH (T : MPoint A0) (x y : ℤ) (k t : MPoint A0) (hk : β k = 0) (ht : γ (α t) = 0) (he : e • t = 0)
    (hT : T = k + t + (x • P + y • Q)) :
    ((m2 * e) • β T, (m1 * d1) • γ (α T)) ∈ h.net.netU.ker ∧ ((m2 * e) • β T, (m1 * d1) • γ (α T)) ∈ h.net.netV.ker := by
  have e : ((m2 * e) • β T, (m1 * d1) • γ (α T)) = (β (((m2 * e : ℕ) * x) • P + ((m2 * e : ℕ) * y) • Q),
      g • γ (α (((m2 * e : ℕ) * x) • P + ((m2 * e : ℕ) * y) • Q))) := by
    have hr := h.dia.combo_tors x y
    have e0 : (((m2 * e : ℕ) : ℤ) * x) • P + (((m2 * e : ℕ) : ℤ) * y) • Q = (m2 * e) • (x • P + y • Q) := by
      rw [mul_zsmul, mul_zsmul, ← zsmul_add, natCast_zsmul]
    rw [e0, hT]
    generalize x • P + y • Q = r at hr
    refine Prod.ext ?_ ?_
    · change (m2 * e) • β (k + t + r) = β ((m2 * e) • r)
      rw [map_add, map_add, hk, zero_add, nsmul_add, ← map_nsmul, mul_nsmul', he, nsmul_zero, map_zero, zero_add, map_nsmul]
    · change (m1 * d1) • γ (α (k + t + r)) = g • γ (α ((m2 * e) • r))
      rw [map_add, map_add, map_add, map_add, ht, add_zero, nsmul_add, ← map_nsmul, ← map_nsmul, mul_nsmul', h.dia.hβ.kill _ hk,
        nsmul_zero, map_zero, map_zero, zero_add, ← map_nsmul, ← map_nsmul, ← map_nsmul, ← map_nsmul]
      congr 2
      have := Diamond.tors_zsmul hr (k := (m1 * d1 : ℕ)) (l := (g * (m2 * e) : ℕ)) (Nat.modEq_iff_dvd.mp h.dia.hg)
      rw [natCast_zsmul, natCast_zsmul] at this
      rw [this, ← mul_nsmul']
  rw [e]
  exact h.graph_mem _ _

theorem compF : (∀ T, ((m1 * dA) • β T, -(m2 • γ (α T))) ∈ h.net.netU.ker) ∨
    ∀ T, ((m1 * dA) • β T, -(m2 • γ (α T))) ∈ h.net.netV.ker := by
  obtain ⟨a1, a2, a3, a4, a5⟩ := h.dia.odds
  have h2 := h.g1.two
  have z1 : m1 * dA ≠ 0 := mul_ne_zero (by omega) (by omega)
  have z2 : m2 ≠ 0 := by omega
  have hγα := h.dia.hα.comp h.dia.hγ
  obtain ⟨S, ne, cS, hS⟩ := h.dia.exists_setF
  have := h.net.comp_null h.g1 h.g2 h.three h.f1 h.f2 h.dia.disc
    (α := (nsmulAddMonoidHom (m1 * dA)).comp β) (β := -((nsmulAddMonoidHom m2).comp (γ.comp α)))
    (h.dia.hβ.poly.comp (PolyX.mul h2 h.g1.disc z1) h.dia.hβ.fin)
    (hγα.poly.comp (PolyX.mul h2 h.g2.disc z2) hγα.fin).neg
    (h.dia.hβ.tendsto_smul h2 h.g1.disc z1) (tendsto_neg_hom (hγα.tendsto_smul h2 h.g2.disc z2)) S (by
      rw [cS]
      have : d1 * (m1 * dA) ^ 2 + dA * e * m2 ^ 2 = dA * 2 ^ n := by rw [← h.dia.norm]; ring
      rw [this]
      exact le_of_eq (by ring)) ne (fun s hs => by
        obtain ⟨k, x, y, hk, e⟩ := hS s hs
        exact h.kerF s x y k hk e)
  exact this

theorem compH : (∀ T, ((m2 * e) • β T, (m1 * d1) • γ (α T)) ∈ h.net.netU.ker) ∨
    ∀ T, ((m2 * e) • β T, (m1 * d1) • γ (α T)) ∈ h.net.netV.ker := by
  obtain ⟨a1, a2, a3, a4, a5⟩ := h.dia.odds
  have h2 := h.g1.two
  have z1 : m2 * e ≠ 0 := mul_ne_zero (by omega) (by omega)
  have z2 : m1 * d1 ≠ 0 := mul_ne_zero (by omega) (by omega)
  have hγα := h.dia.hα.comp h.dia.hγ
  obtain ⟨S, ne, cS, hS⟩ := h.dia.exists_setH
  exact h.net.comp_null h.g1 h.g2 h.three h.f1 h.f2 h.dia.disc
    (α := (nsmulAddMonoidHom (m2 * e)).comp β) (β := ((nsmulAddMonoidHom (m1 * d1)).comp (γ.comp α)))
    (h.dia.hβ.poly.comp (PolyX.mul h2 h.g1.disc z1) h.dia.hβ.fin)
    (hγα.poly.comp (PolyX.mul h2 h.g2.disc z2) hγα.fin)
    (h.dia.hβ.tendsto_smul h2 h.g1.disc z1) (hγα.tendsto_smul h2 h.g2.disc z2) S (by
      rw [cS]
      have : d1 * (m2 * e) ^ 2 + dA * e * (m1 * d1) ^ 2 = d1 * e * 2 ^ n := by rw [← h.dia.norm]; ring
      rw [this]
      exact le_of_eq (by ring)) ne (fun s hs => by
        obtain ⟨k, t, x, y, hk, ht, he, e⟩ := hS s hs
        exact h.kerH s x y k t hk ht he e)

end KaniData
end Festa
