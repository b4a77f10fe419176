import Verif.Lemmas.RankOne
import Verif.Lemmas.GluePoly
/-! On the image of a curve under two isogenies that meet the kernel in enough points one component of the chain is
null. -/
namespace Festa
open WeierstrassCurve.Affine Polynomial Filter
variable {L : Type*} [Field L] [DecidableEq L] [IsAlgClosed L] [RootOps L]
  {E : EProd L} {p1 q1 : MPoint E.E1.A} {p2 q2 : MPoint E.E2.A} {n : ℕ} {O T1 T2 : ThPt L}
  {e l m w e' l' m' w' : L} {M : Mat4 L} {o o' : L × L} {U V : MPoint E.E1.A × MPoint E.E2.A → L × L} {A : L}

/-- The two components along a curve as polynomials in the abscissa. -/
theorem ThetaNet.comp_poly (h : ThetaNet E p1 q1 p2 q2 n O T1 T2 e l m w e' l' m' w' M o o' U V) (g1 : E.E1.Good) (g2 : E.E2.Good)
    (h3 : 3 ≤ n) (f1 : FacPts E.E1 (2 ^ (n - 1) • p1) (2 ^ (n - 1) • q1) e l m w)
    (f2 : FacPts E.E2 (2 ^ (n - 1) • p2) (2 ^ (n - 1) • q2) e' l' m' w') (hA : A * A ≠ 4)
    {α : MPoint A →+ MPoint E.E1.A} {β : MPoint A →+ MPoint E.E2.A} {a b : ℕ} (hα : PolyX α a) (hβ : PolyX β b)
    (tα : Tendsto α cofinite cofinite) (tβ : Tendsto β cofinite cofinite) :
    ∃ (u0 u1 v0 v1 : L[X]) (du dv : ℕ), (u0 ≠ 0 ∨ u1 ≠ 0) ∧ (v0 ≠ 0 ∨ v1 ≠ 0) ∧
      u0.natDegree ≤ du ∧ u1.natDegree ≤ du ∧ v0.natDegree ≤ dv ∧ v1.natDegree ≤ dv ∧ du + dv ≤ 2 ^ n * (a + b) ∧
      ∀ᶠ T in cofinite, PSame (u0.eval (xc T), u1.eval (xc T)) (U (α T, β T)) ∧
        PSame (v0.eval (xc T), v1.eval (xc T)) (V (α T, β T)) := by
  have h2 := g1.two
  have := infinite_points h2 hA
  obtain ⟨v, dv, ev⟩ := glue_poly h2 hA g1.disc g2.disc (gD e l m e' l' m' (2 ^ (n - 1) • p1) (2 ^ (n - 1) • p2))
    (gF e l m e' l' m' (2 ^ (n - 1) • q1) (2 ^ (n - 1) • q2)) (w := w) (w' := w') f1.fac.nm f2.fac.nm f1.onC f2.onC hα hβ tα tβ
  obtain ⟨v', dv', ev'⟩ := polyMap_all (n - 3) O T1 T2 M _ v dv
  have dn : 2 ^ (n - 3 + 2) * (2 * (a + b)) = 2 ^ n * (a + b) := by
    rw [← mul_assoc, ← pow_succ]; congr 2; omega
  rw [dn] at dv'
  have key : ∀ᶠ T in cofinite, (ThPt.tensor (U (α T, β T)) (V (α T, β T))).Same (v'.ev (xc T)) := by
    filter_upwards [ev] with T hT
    rw [ev', ← h.img]
    exact h.same (had_same hT)
  have nU : ∀ x, U x ≠ (0, 0) := fun x => h.netU.ne trivial
  have nV : ∀ x, V x ≠ (0, 0) := fun x => h.netV.ne trivial
  have hne : v' ≠ ⟨0, 0, 0, 0⟩ := by
    rintro rfl
    obtain ⟨T, c, hc, hT⟩ := key.exists
    simp only [ThPt.ev, eval_zero, ThPt.tensor, ThPt.scale, ThPt.mk.injEq, zero_eq_mul, hc, false_or] at hT
    have hu := nU (α T, β T)
    have hv := nV (α T, β T)
    generalize U (α T, β T) = x at *
    generalize V (α T, β T) = y at *
    obtain ⟨x0, x1⟩ := x
    obtain ⟨y0, y1⟩ := y
    simp only [ne_eq, Prod.mk.injEq, mul_eq_zero] at hu hv hT
    tauto
  have hr : v'.X * v'.T = v'.Y * v'.Z := by
    rw [← sub_eq_zero]
    refine poly_zero h2 hA ?_
    filter_upwards [key] with T ⟨c, hc, hT⟩
    simp only [ThPt.ev, ThPt.tensor, ThPt.scale, ThPt.mk.injEq] at hT
    obtain ⟨e1, e2, e3, e4⟩ := hT
    rw [eval_sub, eval_mul, eval_mul, e1, e2, e3, e4]
    ring
  obtain ⟨u0, u1, v0, v1, du, dv, rfl, hu, hv, d1, d2, d3, d4, d5⟩ := rank_one dv' hne hr
  refine ⟨u0, u1, v0, v1, du, dv, hu, hv, d1, d2, d3, d4, d5, ?_⟩
  have nz : ∀ {x0 x1 : L[X]}, (x0 ≠ 0 ∨ x1 ≠ 0) → ∀ᶠ T : MPoint A in cofinite, (x0.eval (xc T), x1.eval (xc T)) ≠ (0, 0) := by
    intro x0 x1 hx
    rcases hx with hx | hx
    · filter_upwards [ev_ne_zero hx] with T hT
      exact fun h => hT (congrArg Prod.fst h)
    · filter_upwards [ev_ne_zero hx] with T hT
      exact fun h => hT (congrArg Prod.snd h)
  filter_upwards [key, nz hu, nz hv] with T hT t1 t2
  refine tensor_same t1 t2 ?_
  convert hT.symm using 1
  simp [ThPt.ev, ThPt.tensor]

/-- One component is null. -/
theorem ThetaNet.comp_null (h : ThetaNet E p1 q1 p2 q2 n O T1 T2 e l m w e' l' m' w' M o o' U V) (g1 : E.E1.Good) (g2 : E.E2.Good)
    (h3 : 3 ≤ n) (f1 : FacPts E.E1 (2 ^ (n - 1) • p1) (2 ^ (n - 1) • q1) e l m w)
    (f2 : FacPts E.E2 (2 ^ (n - 1) • p2) (2 ^ (n - 1) • q2) e' l' m' w') (hA : A * A ≠ 4)
    {α : MPoint A →+ MPoint E.E1.A} {β : MPoint A →+ MPoint E.E2.A} {a b : ℕ} (hα : PolyX α a) (hβ : PolyX β b)
    (tα : Tendsto α cofinite cofinite) (tβ : Tendsto β cofinite cofinite) (S : Finset (MPoint A)) (hS : 2 ^ n * (a + b) ≤ S.card)
    (hne : S.Nonempty) (hk : ∀ s ∈ S, (α s, β s) ∈ h.netU.ker ∧ (α s, β s) ∈ h.netV.ker) :
    (∀ T, (α T, β T) ∈ h.netU.ker) ∨ ∀ T, (α T, β T) ∈ h.netV.ker := by
  have h2 := g1.two
  have := infinite_points h2 hA
  obtain ⟨u0, u1, v0, v1, du, dv, hu, hv, d1, d2, d3, d4, d5, key⟩ := h.comp_poly g1 g2 h3 f1 f2 hA hα hβ tα tβ
  have hpos := hne.card_pos
  have trans : ∀ᶠ T : MPoint A in cofinite, ∀ s ∈ S, PSame (u0.eval (xc (T + s)), u1.eval (xc (T + s))) (U (α (T + s), β (T + s))) ∧
      PSame (v0.eval (xc (T + s)), v1.eval (xc (T + s))) (V (α (T + s), β (T + s))) := by
    rw [Finset.eventually_all]
    exact fun s _ => (tendsto_add s).eventually key
  have main : ∀ {x0 x1 : L[X]} {d : ℕ} {W : MPoint E.E1.A × MPoint E.E2.A → L × L} {c : L × L} (hW : Net c (fun _ => True) W),
      (x0 ≠ 0 ∨ x1 ≠ 0) → x0.natDegree ≤ d → x1.natDegree ≤ d → d < S.card →
      (∀ᶠ T in cofinite, PSame (x0.eval (xc T), x1.eval (xc T)) (W (α T, β T))) → (∀ᶠ T : MPoint A in cofinite, ∀ s ∈ S,
        PSame (x0.eval (xc (T + s)), x1.eval (xc (T + s))) (W (α (T + s), β (T + s)))) → (∀ s ∈ S, (α s, β s) ∈ hW.ker) →
      ∀ T, (α T, β T) ∈ hW.ker := by
    intro x0 x1 d W c hW hx dx0 dx1 hd k1 k2 k3
    obtain ⟨c0, c1, hc, e⟩ := const_of_many h2 hA hx dx0 dx1 S hd (by
      filter_upwards [k1, k2] with T t1 t2 s hs
      have : PSame (W (α T, β T)) (W (α (T + s), β (T + s))) := by
        have := hW.add_null (α T, β T) (k3 s hs)
        rw [map_add, map_add]
        exact this
      exact ((t2 s hs).trans (this.symm.trans t1.symm)).cross.trans (by ring))
    have hn := (hW.comp (α.prod β)).all_null h2 hA (c := (c0, c1)) (by
      filter_upwards [k1] with T t1
      refine PSame.trans (PSame.of_cross ?_ ?_ ?_) t1
      · intro h0
        rw [Prod.mk.injEq] at h0
        rcases hc with hc | hc
        · exact hc h0.1
        · exact hc h0.2
      · intro h0
        obtain ⟨c, -, hc⟩ := t1
        rw [Prod.mk.injEq] at h0
        rw [h0.1, h0.2, mul_zero] at hc
        exact hW.ne trivial hc
      · have := congrArg (eval (xc T)) e
        simp only [eval_mul, eval_C] at this
        simp only
        linear_combination -this)
    exact hn
  by_cases hdu : du < S.card
  · left
    exact main h.netU hu d1 d2 hdu (key.mono fun T h => h.1) (trans.mono fun T h s hs => (h s hs).1) (fun s hs => (hk s hs).1)
  · right
    exact main h.netV hv d3 d4 (by omega) (key.mono fun T h => h.2) (trans.mono fun T h s hs => (h s hs).2) (fun s hs => (hk s hs).2)

end Festa
