import Verif.Lemmas.KaniClosed
/-! The other component of the chain is injective on the 2-power torsion of the first curve. -/
namespace Festa
open WeierstrassCurve.Affine Polynomial Filter
variable {L : Type*} [Field L] [DecidableEq L] [RootOps L]

omit [RootOps L] in
/-- Points with abscissa `1` or `-1` have order four. -/
theorem four_of_xc {A : L} (h2 : (2 : L) ≠ 0) (hA : A * A ≠ 4) {f : MPoint A} {X Z : L} (hf : KRep X Z f) (hx : X * X = Z * Z) :
    4 • f = 0 := by
  have hd := krep_dbl (crv_good h2 hA) hf
  have e : 4 • f = 2 • (2 • f) := by rw [← mul_nsmul]
  rw [e]
  by_cases h0 : 2 • f = 0
  · rw [h0, smul_zero]
  · rw [krep_iff h0] at hd
    simp only [Crv.xDbl] at hd
    have x0 : xc (2 • f) = 0 := by
      have : xc (2 • f) * _ = 0 := hd.2.symm.trans (by linear_combination (X * X - Z * Z) * hx)
      exact (mul_eq_zero.mp this).resolve_right hd.1
    have y0 := yc_sq h0
    rw [x0] at y0
    rw [two_nsmul, add_self_iff h2 h0]
    have : yc (2 • f) ^ 2 = 0 := by rw [y0]; ring
    exact pow_eq_zero_iff two_ne_zero |>.mp this

/-- Elements of the product whose image has a vanishing coordinate are killed by four. -/
theorem Net.four_ker [IsAlgClosed L] {G : Type*} [AddCommGroup G] {o : L × L} {θ : G → L × L} (h : Net o (fun _ => True) θ) {x : G}
    (hx : (θ x).1 = 0 ∨ (θ x).2 = 0) : 4 • x ∈ h.ker := by
  have h2 := h.two
  obtain ⟨f, hf⟩ := exists_tr h2 h.null (h.ne (x := x) trivial)
  obtain ⟨E', -, hE, hA⟩ := C50_curve h2 h.null
  have dis : nullToMontCoeff o * nullToMontCoeff o ≠ 4 := by rw [← hA]; exact hE.disc
  have dbl : ∀ {y : G} {g : MPoint (nullToMontCoeff o)}, TR o (θ y) g → TR o (θ (2 • y)) (2 • g) := by
    intro y g hg
    rw [two_nsmul, two_nsmul]
    rcases h.pair rfl trivial trivial trivial trivial hg hg with ⟨e, -⟩ | ⟨e1, e2⟩
    · exact e
    · have h0 : y - y ∈ h.ker := by rw [sub_self]; exact h.ker.zero_mem
      have := TR.zero_of h2 h.null h0 e2
      rw [sub_self] at e1
      rw [this]
      exact e1
  have f4 : 4 • f = 0 := by
    refine four_of_xc h2 dis hf ?_
    simp only [thetaToMontPoint]
    rcases hx with e | e <;> rw [e] <;> ring
  have := dbl (dbl hf)
  rw [← mul_nsmul, ← mul_nsmul, show 2 * 2 = 4 from rfl, f4] at this
  exact this.isNull h.null (h.ne trivial)

variable [IsAlgClosed L] {E : EProd L} {p1 q1 : MPoint E.E1.A} {p2 q2 : MPoint E.E2.A} {n : ℕ} {O T1 T2 : ThPt L}
  {ε l m w ε' l' m' w' : L} {M : Mat4 L} {o o' : L × L} {U V : MPoint E.E1.A × MPoint E.E2.A → L × L} {A0 AF : L}
  {β : MPoint A0 →+ MPoint E.E1.A} {α : MPoint A0 →+ MPoint AF} {γ : MPoint AF →+ MPoint E.E2.A}
  {d1 dA e m1 m2 g : ℕ} {P Q : MPoint A0}
namespace KaniData
variable (h : KaniData E p1 q1 p2 q2 n O T1 T2 ε l m w ε' l' m' w' M o o' U V β α γ d1 dA e m1 m2 g P Q)
include h

theorem other {c : L × L} {W : MPoint E.E1.A × MPoint E.E2.A → L × L} (hW : Net c (fun _ => True) W)
    (hF : ∀ T, ((m1 * dA) • β T, -(m2 • γ (α T))) ∈ hW.ker)
    (hH : ∀ T, ((m2 * e) • β T, (m1 * d1) • γ (α T)) ∈ hW.ker →
      ∃ a b : ℤ, ((m2 * e) • β T, (m1 * d1) • γ (α T)) = (β (a • P + b • Q), g • γ (α (a • P + b • Q))))
    {k : ℕ} {Y : MPoint E.E1.A} (hk : 2 ^ k • Y = 0) (hY : (Y, 0) ∈ hW.ker) : Y = 0 := by
  have h2 := h.g1.two
  obtain ⟨a1, a2, a3, a4, a5⟩ := h.dia.odds
  obtain ⟨Y', rfl⟩ := smul_surj h2 h.g1.disc (n := 2 ^ n) (pow_ne_zero _ two_ne_zero) Y
  obtain ⟨T, rfl⟩ := h.dia.hβ.surj Y'
  have e0 : (2 ^ n • β T, (0 : MPoint E.E2.A)) = (m1 * d1) • ((m1 * dA) • β T, -(m2 • γ (α T))) +
      ((m2 * e) • β (m2 • T), (m1 * d1) • γ (α (m2 • T))) := by
    refine Prod.ext ?_ ?_
    · change 2 ^ n • β T = (m1 * d1) • (m1 * dA) • β T + (m2 * e) • β (m2 • T)
      rw [← h.dia.norm, map_nsmul]
      module
    · change 0 = (m1 * d1) • (-(m2 • γ (α T))) + (m1 * d1) • γ (α (m2 • T))
      rw [map_nsmul, map_nsmul, smul_neg, neg_add_cancel]
  rw [e0] at hY
  have hY := (add_mem_cancel_left (nsmul_mem (hF T) _)).mp hY
  obtain ⟨a, b, eq⟩ := hH _ hY
  have eq : (m2 * e) • β (m2 • T) = β (a • P + b • Q) := congrArg Prod.fst eq
  refine tors_cop (a := m2 * (m2 * e)) (Diamond.cop_pow k ?_) ?_ hk
  · rw [Nat.mul_mod, h.dia.odd2, show m2 % 2 = 1 by omega]
  · have := congrArg (fun y => 2 ^ n • y) eq
    simp only [← map_nsmul, h.dia.combo_tors, map_zero] at this
    rw [← this, ← map_nsmul, ← map_nsmul]
    congr 1
    module

/-- One component of the chain is the map of the diamond, the other one does not kill points of the first curve. -/
theorem main : (IsoTR o (fun x : MPoint A0 × MPoint AF => U (β x.1, γ x.2)) (fun x => (m1 * d1) • α x.1 - (m2 * e) • x.2) ∧
      ∀ (k : ℕ) (Y : MPoint E.E1.A), 2 ^ k • Y = 0 → (Y, 0) ∈ h.net.netV.ker → Y = 0) ∨
    (IsoTR o' (fun x : MPoint A0 × MPoint AF => V (β x.1, γ x.2)) (fun x => (m1 * d1) • α x.1 - (m2 * e) • x.2) ∧
      ∀ (k : ℕ) (Y : MPoint E.E1.A), 2 ^ k • Y = 0 → (Y, 0) ∈ h.net.netU.ker → Y = 0) := by
  obtain ⟨a1, a2, a3, a4, a5⟩ := h.dia.odds
  have h2 := h.g1.two
  have z1 : m1 * dA ≠ 0 := mul_ne_zero (by omega) (by omega)
  have z2 : m2 ≠ 0 := by omega
  have hγα := h.dia.hα.comp h.dia.hγ
  obtain ⟨u0, u1, v0, v1, du, dv, -, -, b1, b2, b3, b4, b5, key⟩ := h.net.comp_poly h.g1 h.g2 h.three h.f1 h.f2 h.dia.disc
    (α := (nsmulAddMonoidHom (m1 * dA)).comp β) (β := -((nsmulAddMonoidHom m2).comp (γ.comp α)))
    (h.dia.hβ.poly.comp (PolyX.mul h2 h.g1.disc z1) h.dia.hβ.fin)
    (hγα.poly.comp (PolyX.mul h2 h.g2.disc z2) hγα.fin).neg
    (h.dia.hβ.tendsto_smul h2 h.g1.disc z1) (tendsto_neg_hom (hγα.tendsto_smul h2 h.g2.disc z2))
  have hd : 2 ^ n * (d1 * (m1 * dA) ^ 2 + dA * e * m2 ^ 2) = dA * (2 ^ n) ^ 2 := by
    have : d1 * (m1 * dA) ^ 2 + dA * e * m2 ^ 2 = dA * 2 ^ n := by rw [← h.dia.norm]; ring
    rw [this]; ring
  rw [hd] at b5
  rcases h.split with s | s
  · refine .inr ⟨?_, fun k Y hk hY => h.other h.net.netU (fun T => (s T).1) (fun T hT => h.graph_of hT (s T).2) hk hY⟩
    exact h.comp_iso h.net.netV (by omega) (by omega) (key.mono fun T hT => hT.2) (fun T x y k hk hT => (h.kerF T x y k hk hT).2)
      (fun T hT => h.of_kerF (s T).1 hT) fun T => (s T).2
  · refine .inl ⟨?_, fun k Y hk hY => h.other h.net.netV (fun T => (s T).1) (fun T hT => h.graph_of (s T).2 hT) hk hY⟩
    exact h.comp_iso h.net.netU (by omega) (by omega) (key.mono fun T hT => hT.1) (fun T x y k hk hT => (h.kerF T x y k hk hT).1)
      (fun T hT => h.of_kerF hT (s T).1) fun T => (s T).2

end KaniData
end Festa
