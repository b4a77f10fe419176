import Verif.Lemmas.ThetaLine
/-! A linear form that vanishes at more points of a curve on a Kummer surface than twice the degree of the curve vanishes on the
whole curve. -/
namespace Festa
open WeierstrassCurve.Affine Polynomial Filter
variable {L : Type*} [Field L]

theorem exists_wf_deg {v : ThPt L[X]} {d : ℕ} (hv : v.Deg d) (j : Fin 10) :
    ∃ P : L[X], P.natDegree ≤ 2 * d ∧ ∀ x, P.eval x = wf j (v.ev x) (v.ev x) := by
  have m : ∀ {a b : L[X]}, a.natDegree ≤ d → b.natDegree ≤ d → (a * b).natDegree ≤ 2 * d := fun ha hb => by
    rw [two_mul]; exact deg_mul ha hb
  obtain ⟨hX, hY, hZ, hT⟩ := hv
  fin_cases j
  · exact ⟨v.X * v.X + v.Y * v.Y + v.Z * v.Z + v.T * v.T, deg_add (deg_add (deg_add (m hX hX) (m hY hY)) (m hZ hZ)) (m hT hT),
      fun x => by simp [wf, ThPt.ev]⟩
  · exact ⟨v.X * v.X - v.Y * v.Y + v.Z * v.Z - v.T * v.T, deg_sub (deg_add (deg_sub (m hX hX) (m hY hY)) (m hZ hZ)) (m hT hT),
      fun x => by simp [wf, ThPt.ev]⟩
  · exact ⟨v.X * v.X + v.Y * v.Y - v.Z * v.Z - v.T * v.T, deg_sub (deg_sub (deg_add (m hX hX) (m hY hY)) (m hZ hZ)) (m hT hT),
      fun x => by simp [wf, ThPt.ev]⟩
  · exact ⟨v.X * v.X - v.Y * v.Y - v.Z * v.Z + v.T * v.T, deg_add (deg_sub (deg_sub (m hX hX) (m hY hY)) (m hZ hZ)) (m hT hT),
      fun x => by simp [wf, ThPt.ev]⟩
  · exact ⟨v.X * v.Y + v.Y * v.X + (v.Z * v.T + v.T * v.Z), deg_add (deg_add (m hX hY) (m hY hX)) (deg_add (m hZ hT) (m hT hZ)),
      fun x => by simp [wf, ThPt.ev]⟩
  · exact ⟨v.X * v.Y + v.Y * v.X - (v.Z * v.T + v.T * v.Z), deg_sub (deg_add (m hX hY) (m hY hX)) (deg_add (m hZ hT) (m hT hZ)),
      fun x => by simp [wf, ThPt.ev]⟩
  · exact ⟨v.X * v.Z + v.Z * v.X + (v.Y * v.T + v.T * v.Y), deg_add (deg_add (m hX hZ) (m hZ hX)) (deg_add (m hY hT) (m hT hY)),
      fun x => by simp [wf, ThPt.ev]⟩
  · exact ⟨v.X * v.Z + v.Z * v.X - (v.Y * v.T + v.T * v.Y), deg_sub (deg_add (m hX hZ) (m hZ hX)) (deg_add (m hY hT) (m hT hY)),
      fun x => by simp [wf, ThPt.ev]⟩
  · exact ⟨v.X * v.T + v.T * v.X + (v.Y * v.Z + v.Z * v.Y), deg_add (deg_add (m hX hT) (m hT hX)) (deg_add (m hY hZ) (m hZ hY)),
      fun x => by simp [wf, ThPt.ev]⟩
  · exact ⟨v.X * v.T + v.T * v.X - (v.Y * v.Z + v.Z * v.Y), deg_sub (deg_add (m hX hT) (m hT hX)) (deg_add (m hY hZ) (m hZ hY)),
      fun x => by simp [wf, ThPt.ev]⟩

theorem exists_quad_deg {v : ThPt L[X]} {d : ℕ} (hv : v.Deg d) (c : Fin 10 → L) :
    ∃ P : L[X], P.natDegree ≤ 2 * d ∧ ∀ x, P.eval x = ∑ j, c j * wf j (v.ev x) (v.ev x) := by
  choose P dP hP using exists_wf_deg hv
  refine ⟨∑ j, C (c j) * P j, ?_, fun x => ?_⟩
  · exact natDegree_sum_le_of_forall_le _ _ fun j _ => deg_C' (dP j)
  · rw [eval_finsetSum]
    exact Finset.sum_congr rfl fun j _ => by rw [eval_mul, eval_C, hP]

variable [DecidableEq L] [IsAlgClosed L] {A : L} {O : ThPt L} {θ : MPoint A → ThPt L} {v : ThPt L[X]} {d : ℕ}

namespace SurfNet

/-- A linear form with more zeros than twice the degree. -/
theorem kill (h : SurfNet O θ) (h2 : (2 : L) ≠ 0) (hA : A * A ≠ 4) (dv : v.Deg d) (hv : ∀ᶠ T in cofinite, (θ T).Same (v.ev (xc T)))
    {u : ThPt L} (S : Finset (MPoint A)) (hS : 2 * d < S.card) (hs : ∀ s ∈ S, wf 0 u (θ s) = 0) (T : MPoint A) : wf 0 u (θ T) = 0 := by
  have := infinite_points h2 hA
  obtain ⟨c, hc⟩ := exists_coeff h2 u u
  have hc : ∀ X Y : ThPt L, (∑ j, c j * wf j X Y) = 0 ↔ wf 0 u X = 0 ∨ wf 0 u Y = 0 := by
    intro X Y
    rw [← hc, show wf 0 u X * wf 0 u Y + wf 0 u Y * wf 0 u X = 2 * (wf 0 u X * wf 0 u Y) by ring, mul_eq_zero, or_iff_right h2, mul_eq_zero]
  have riem_sum : ∀ X Y : MPoint A, (wf 0 u (θ (X + Y)) = 0 ∨ wf 0 u (θ (X - Y)) = 0) ↔
      (∑ j, c j * (wf j (θ X) (θ X) / wf j O O) * wf j (θ Y) (θ Y)) = 0 := by
    intro X Y
    rw [← hc]
    obtain ⟨k, hk, e⟩ := h.riem X Y
    have : (∑ j, c j * wf j (θ (X + Y)) (θ (X - Y))) = k * ∑ j, c j * (wf j (θ X) (θ X) / wf j O O) * wf j (θ Y) (θ Y) := by
      rw [Finset.mul_sum]
      refine Finset.sum_congr rfl fun j _ => ?_
      rw [eq_div_of_mul_eq (h.ten j) (e j)]
      ring
    rw [this, mul_eq_zero, or_iff_right hk]
  have sum_same : ∀ (c : Fin 10 → L) {X Y : ThPt L}, X.Same Y → ((∑ j, c j * wf j X X) = 0 ↔ (∑ j, c j * wf j Y Y) = 0) := by
    rintro c X Y ⟨k, hk, rfl⟩
    have : (∑ j, c j * wf j (X.scale k) (X.scale k)) = k ^ 2 * ∑ j, c j * wf j X X := by
      rw [Finset.mul_sum]
      refine Finset.sum_congr rfl fun j _ => ?_
      rw [wf_scale_both]
      ring
    rw [this, mul_eq_zero, or_iff_right (pow_ne_zero 2 hk)]
  -- for almost all pairs the form vanishes at the sum or at the difference
  have gen : ∀ᶠ X : MPoint A in cofinite, ∀ Y : MPoint A, (θ Y).Same (v.ev (xc Y)) → wf 0 u (θ (X + Y)) = 0 ∨ wf 0 u (θ (X - Y)) = 0 := by
    have trans : ∀ᶠ Y : MPoint A in cofinite, ∀ s ∈ S, (θ (Y + s)).Same (v.ev (xc (Y + s))) := by
      rw [Finset.eventually_all]
      exact fun s _ => (tendsto_add s).eventually hv
    have tn : Tendsto (fun X : MPoint A => -X) cofinite cofinite := neg_injective.tendsto_cofinite
    filter_upwards [tn.eventually trans, tn.eventually (ev_translates h2 hA S)] with X h0 h1
    obtain ⟨P, dP, hP⟩ := exists_quad_deg dv fun j => c j * (wf j (θ X) (θ X) / wf j O O)
    have z : P = 0 := by
      refine eq_zero_of_natDegree_lt_card_of_eval_eq_zero' P (S.image fun s => xc (-X + s)) ?_ ?_
      · intro x hx
        obtain ⟨s, hs', rfl⟩ := Finset.mem_image.mp hx
        rw [hP, ← sum_same (fun j => c j * (wf j (θ X) (θ X) / wf j O O)) (h0 s hs'), ← riem_sum]
        left
        rw [add_neg_cancel_left]
        exact hs s hs'
      · rw [Finset.card_image_of_injOn fun s hs s' hs' e => h1.2 s hs s' hs' e]
        omega
    intro Y hY
    rw [riem_sum, sum_same (fun j => c j * (wf j (θ X) (θ X) / wf j O O)) hY, ← hP, z, eval_zero]
  refine h.extend h2 hA hv ?_ T
  -- there are not two points with a value other than zero
  by_contra hf
  have hf : ∃ᶠ Z in cofinite, wf 0 u (θ Z) ≠ 0 := fun h => hf (h.mono fun Z hZ => not_not.mp hZ)
  obtain ⟨Z, hZ⟩ := hf.exists
  have fin : ∀ {p : MPoint A → Prop} (f : MPoint A → MPoint A), (∀ᶠ X in cofinite, p X) → ∀ᶠ W in cofinite, ∀ X, W = f X → p X := by
    intro p f hp
    have : {X | ¬ p X}.Finite := hp
    refine (this.image f).subset ?_
    intro W hW
    simp only [Set.mem_compl_iff, Set.mem_ofPred_eq, not_forall] at hW
    obtain ⟨X, e, n⟩ := hW
    exact ⟨X, n, e.symm⟩
  obtain ⟨W, hW, w1, w2⟩ := (hf.and_eventually ((fin (fun X => 2 • X - Z) gen).and (fin (fun Y => Z - 2 • Y) hv))).exists
  obtain ⟨X, hX⟩ := smul_surj h2 hA two_ne_zero (Z + W)
  have e1 : X + (Z - X) = Z := by abel
  have e2 : X - (Z - X) = W := by
    have : X - (Z - X) = 2 • X - Z := by rw [two_nsmul]; abel
    rw [this, hX]; abel
  have := w1 X (by rw [hX]; abel) (Z - X) (w2 (Z - X) (by rw [nsmul_sub, hX, two_nsmul]; abel))
  rw [e1, e2] at this
  exact this.elim hZ hW

end SurfNet
end Festa
