import Verif.Lemmas.ChainPos
import Verif.Lemmas.KaniPen
import Verif.Lemmas.KaniDescent
/-! Which factor of the product is the one of Kani's lemma, and where its point `(0, 0)` lies. -/
namespace Festa
open WeierstrassCurve.Affine

section
variable {K : Type*} [Field K] [DecidableEq K] {E : EProd K} {n : ℕ} {p1 q1 : MPoint E.E1.A} {p2 q2 : MPoint E.E2.A} {O T1 T2 : ThPt K}
  {ε l m w ε' l' m' w' : K}

/-- The images of the second generator and of a point of order two in the two factors. -/
theorem factor_pos (g1 : E.E1.Good) (g2 : E.E2.Good) (h3 : 3 ≤ n)
    (f1 : FacPts E.E1 (2 ^ (n - 1) • p1) (2 ^ (n - 1) • q1) ε l m w)
    (f2 : FacPts E.E2 (2 ^ (n - 1) • p2) (2 ^ (n - 1) • q2) ε' l' m' w')
    (frm : GlueFrm E p1 q1 p2 q2 n O T1 T2 ε l m w ε' l' m' w') (hc : ProdChain (n - 1) O T1 T2) {M : Mat4 K} {o o' : K × K}
    (hM : M = ⟨⟨1, 1, 1, 1⟩, ⟨1, -1, 1, -1⟩, ⟨1, 1, -1, -1⟩, ⟨-1, 1, 1, -1⟩⟩)
    (nulls : (chainNull (n - 3) O T1 T2).baseChange M = ThPt.tensor o o') {u v u' v' : K × K}
    (i1 : (ThPt.tensor u v).Same ((chainImg (n - 3) O T1 T2 (glueW E p1 q1 p2 q2 n ε l m w ε' l' m' w' (q1, q2)).had).baseChange M))
    (i2 : (ThPt.tensor u' v').Same
      ((chainImg (n - 3) O T1 T2 (glueW E p1 q1 p2 q2 n ε l m w ε' l' m' w' (0, 4 • 2 ^ (n - 1) • p2)).had).baseChange M))
    (hv : v ≠ (0, 0)) (hu' : u' ≠ (0, 0)) (hv' : v' ≠ (0, 0)) :
    u.2 = 0 ∧ ∃ t, t ≠ 0 ∧ (o'.1, -o'.2) = (t * v'.1, t * v'.2) := by
  have h2 := g1.two
  have h : GluePts E ⟨ptOf _, ptOf _⟩ ⟨ptOf _, ptOf _⟩ _ _ _ _ ε l m w ε' l' m' w' :=
    ⟨g1, g2, f1, f2, ptOf_rep _, ptOf_rep _, ptOf_rep _, ptOf_rep _⟩
  have eO := frm.null
  obtain ⟨a, b, c, d⟩ := chain_pos h2 (n - 3) (by rw [show n - 3 + 2 = n - 1 by omega]; exact hc.reg)
    (OnKummer.same (by rw [eO]; exact h.w_kummer _ _) frm.fst) (OnKummer.same (by rw [eO]; exact h.w_kummer _ _) frm.snd)
  have bc : ∀ {X Y : ThPt K}, X.Same Y → (X.baseChange M).Same (Y.baseChange M) := by
    rintro X Y ⟨c, hc, rfl⟩
    refine ⟨c, hc, ?_⟩
    simp only [ThPt.baseChange, ThPt.scale, ThPt.dot, ThPt.mk.injEq]
    refine ⟨?_, ?_, ?_, ?_⟩ <;> ring
  constructor
  · obtain ⟨s, hs, e⟩ := i1.trans (bc (a frm.snd))
    obtain ⟨z, t⟩ := baseChange_snd hM b c
    rw [e] at z t
    simp only [ThPt.scale, ThPt.tensor, mul_eq_zero, hs, false_or] at z t
    by_contra hu
    simp only [hu, false_or] at z t
    exact hv (Prod.ext z t)
  · have hk : (glueW E p1 q1 p2 q2 n ε l m w ε' l' m' w' (0, 4 • 2 ^ (n - 1) • p2)).had.Same O.swapZ := by
      obtain ⟨k, hk⟩ := h.w_fp
      have hne := h.w_ne 0 (4 • 2 ^ (n - 1) • p2)
      have hk0 : k ≠ 0 := by
        rintro rfl
        refine hne ?_
        rw [hk]
        simp [ThPt.scale, ThPt.had, ThPt.zero]
      refine ⟨k⁻¹, inv_ne_zero hk0, ?_⟩
      rw [glueW, hk, eO]
      simp only [ThPt.swapZ, ThPt.had, ThPt.scale, gn, ThPt.mk.injEq]
      refine ⟨?_, ?_, ?_, ?_⟩ <;> field_simp <;> ring
    have := i2.trans (bc ((a hk).trans d))
    rw [baseChange_negZT hM nulls] at this
    exact (tensor_same hu' hv' this).2

end

section
variable {K L : Type*} [Field K] [Field L] (σ : K →+* L) [DecidableEq K] [DecidableEq L] {E : EProd K}
  {N : MPoint E.E1.A × MPoint E.E2.A → Prop} {c : K × K} {W : MPoint E.E1.A × MPoint E.E2.A → K × K}

/-- A point sent to zero by `φ` has the null point as its pair. -/
theorem PartIs.zero {A0 AF : L} {β : MPoint A0 →+ MPoint (E.up σ).E1.A} {γ : MPoint AF →+ MPoint (E.up σ).E2.A} {φ : MPoint A0 × MPoint AF → MPoint AF}
    (h : PartIs σ N c W β γ φ) {x : MPoint E.E1.A × MPoint E.E2.A} (hx : N x) {X1 : MPoint A0} {X2 : MPoint AF}
    (e1 : β X1 = mapHom σ x.1) (e2 : γ X2 = mapHom σ x.2) (h0 : φ (X1, X2) = 0) : c.1 * (W x).2 = c.2 * (W x).1 := by
  obtain ⟨u, v, w, ι, -, -, -, -, -, -, hk⟩ := h
  have := hk x hx X1 X2 e1 e2
  rw [h0, map_zero] at this
  have : σ (thetaToMontPoint c (W x)).Z = 0 := this.2
  rw [map_eq_zero] at this
  exact sub_eq_zero.mp this

/-- On a curve with the opposite coefficient the point `(0, 0)` comes from the point `(0, 0)`. -/
theorem PartIs.opposite {A0 : L} {EA F : Crv K} (hFA : F.A = nullToMontCoeff c) (hn : F.A = -EA.A)
    (a0 : EA.A ≠ 0) (a3 : EA.A * EA.A ≠ 3) (a9 : 2 * (EA.A * EA.A) ≠ 9)
    {β : MPoint A0 →+ MPoint (E.up σ).E1.A} {γ : MPoint (σ EA.A) →+ MPoint (E.up σ).E2.A} {φ : MPoint A0 × MPoint (σ EA.A) → MPoint (σ EA.A)}
    (h : PartIs σ N c W β γ φ) {x : MPoint E.E1.A × MPoint E.E2.A} (hx : N x) {X1 : MPoint A0} {X2 : MPoint (σ EA.A)}
    (e1 : β X1 = mapHom σ x.1) (e2 : γ X2 = mapHom σ x.2) {Φ : MPoint EA.A} (hΦ : Φ ≠ 0) (e : φ (X1, X2) = mapHom σ Φ)
    (hW : c.1 * (W x).2 + c.2 * (W x).1 = 0) : xc Φ = 0 := by
  obtain ⟨u, v, w, ι, hu, hw, i1, i2, i3, hι, hk⟩ := h
  have hA : Aff (σ EA.A) (σ F.A) u v := by rw [hFA]; exact ⟨hu, i1, i2, i3⟩
  have hneg : Aff (σ F.A) (σ EA.A) (-1) 0 := ⟨by simp, by rw [hn, map_neg]; ring, by ring, by ring⟩
  obtain ⟨k1, k2⟩ := (hA.comp hneg).auto ((map_ne_zero σ).mpr a0)
    (fun h => a3 (σ.injective (by rw [map_mul, h, map_ofNat]))) (fun h => a9 (σ.injective (by rw [map_mul, map_mul, map_ofNat, map_ofNat, h])))
  have := hk x hx X1 X2 e1 e2
  have hm : mapHom σ Φ ≠ 0 := fun h => hΦ (mapPt_inj σ h)
  rw [e, krep_iff (fun h => hm (ι.injective (by rw [h, map_zero]))), (hι _ hm).1, show xc (mapHom σ Φ) = σ (xc Φ) from xc_mapPt σ Φ] at this
  obtain ⟨hz, hX⟩ := this
  have hX0 : (thetaToMontPoint c (W x)).X = 0 := hW
  rw [hX0, map_zero] at hX
  have := (mul_eq_zero.mp hX.symm).resolve_right hz
  rw [← map_eq_zero σ]
  linear_combination -this - σ (xc Φ) * k1 - k2

end
end Festa
