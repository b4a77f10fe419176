import Verif.Lemmas.RankOne
import Verif.Lemmas.KaniSplit
import Verif.Lemmas.ECIso
/-! A net on a curve with the fibres of an isogeny and its degree is that isogeny, up to an isomorphism of curves. -/
namespace Festa
open WeierstrassCurve.Affine Polynomial Filter
variable {L : Type*} [Field L] [DecidableEq L] [IsAlgClosed L] [RootOps L] {A AF : L} {o : L × L} {θ : MPoint A → L × L}
  {ν : MPoint A →+ MPoint AF} {D : ℕ}

/-- The net is a linear fractional function of the abscissa of the isogeny. -/
theorem Net.mobius (h : Net o (fun _ => True) θ) (hA : A * A ≠ 4) (hν : PolyX ν D) (tν : Tendsto ν cofinite cofinite) {v0 v1 : L[X]}
    (d0 : v0.natDegree ≤ D) (d1 : v1.natDegree ≤ D) (hv : ∀ᶠ T in cofinite, PSame (v0.eval (xc T), v1.eval (xc T)) (θ T))
    (S : Finset (MPoint A)) (hS : D ≤ S.card) (hs : ∀ s ∈ S, ν s = 0 ∧ s ∈ h.ker) (hker : ∀ T ∈ h.ker, ν T = 0) :
    ∃ a b c d : L, a * d - b * c ≠ 0 ∧ ∀ᶠ T in cofinite, ν T ≠ 0 ∧ PSame (a * xc (ν T) + b, c * xc (ν T) + d) (θ T) := by
  have h2 := h.two
  have := infinite_points h2 hA
  obtain ⟨P, Q, dP, dQ, hPQ⟩ := hν
  have good := hPQ.and hv
  have dg : ∀ a b c a' b' c' : L, ((v0 * C a - v1 * C b) * C c - (P * C a' - Q * C b') * C c').natDegree ≤ D :=
    fun a b c a' b' c' => deg_sub (deg_C (deg_sub (deg_C d0) (deg_C d1))) (deg_C (deg_sub (deg_C dP) (deg_C dQ)))
  have goodS : ∀ᶠ T : MPoint A in cofinite, ∀ s ∈ S, (ν (T + s) ≠ 0 ∧ Q.eval (xc (T + s)) ≠ 0 ∧
      xc (ν (T + s)) * Q.eval (xc (T + s)) = P.eval (xc (T + s))) ∧
      PSame (v0.eval (xc (T + s)), v1.eval (xc (T + s))) (θ (T + s)) := by
    rw [Finset.eventually_all]
    exact fun s _ => (tendsto_add s).eventually good
  obtain ⟨T, ⟨⟨t1, t2, t3⟩, t4⟩, tS, t5, t6⟩ := (good.and (goodS.and (ev_translates h2 hA S))).exists
  obtain ⟨T', ⟨⟨t1', t2', t3'⟩, t4'⟩, tS', ⟨t5', t6'⟩, n1, n2⟩ := (good.and (goodS.and ((ev_translates h2 hA S).and
    ((tν.eventually (ev_ne (ν T))).and (tν.eventually (ev_ne (-ν T))))))).exists
  have pair : ∀ {T T' : MPoint A}, (ν T ≠ 0 ∧ Q.eval (xc T) ≠ 0 ∧ xc (ν T) * Q.eval (xc T) = P.eval (xc T)) →
      PSame (v0.eval (xc T), v1.eval (xc T)) (θ T) → (∀ s ∈ S, (ν (T + s) ≠ 0 ∧ Q.eval (xc (T + s)) ≠ 0 ∧
      xc (ν (T + s)) * Q.eval (xc (T + s)) = P.eval (xc (T + s))) ∧
      PSame (v0.eval (xc (T + s)), v1.eval (xc (T + s))) (θ (T + s))) → (∀ s ∈ S, ∀ s' ∈ S, xc (T + s) = xc (T + s') → s = s') →
      (ν T' ≠ 0 ∧ Q.eval (xc T') ≠ 0 ∧ xc (ν T') * Q.eval (xc T') = P.eval (xc T')) →
      PSame (v0.eval (xc T'), v1.eval (xc T')) (θ T') → ν T' ≠ ν T → ν T' ≠ -ν T →
      v1.eval (xc T) * v0.eval (xc T') - v0.eval (xc T) * v1.eval (xc T') ≠ 0 ∧
      Q.eval (xc T) * P.eval (xc T') - P.eval (xc T) * Q.eval (xc T') ≠ 0 ∧
      (v0 * C (v1.eval (xc T)) - v1 * C (v0.eval (xc T))) * C (Q.eval (xc T) * P.eval (xc T') - P.eval (xc T) * Q.eval (xc T')) =
      (P * C (Q.eval (xc T)) - Q * C (P.eval (xc T))) *
        C (v1.eval (xc T) * v0.eval (xc T') - v0.eval (xc T) * v1.eval (xc T')) := by
    rintro T T' ⟨t1, t2, t3⟩ t4 tS t6 ⟨t1', t2', t3'⟩ t4' n1 n2
    have q1 : v1.eval (xc T) * v0.eval (xc T') - v0.eval (xc T) * v1.eval (xc T') ≠ 0 := by
      intro e0
      have z : ∀ {T}, PSame (v0.eval (xc T), v1.eval (xc T)) (θ T) → (v0.eval (xc T), v1.eval (xc T)) ≠ (0, 0) := by
        rintro T ⟨c, hc, e⟩ h0
        simp only [Prod.mk.injEq] at h0
        refine h.ne (x := T) trivial ?_
        rw [e, h0.1, h0.2, mul_zero]
      have hp : PSame (θ T') (θ T) := t4'.symm.trans ((PSame.of_cross (z t4') (z t4) (by linear_combination e0)).trans t4)
      rcases h.same_or hp with e | e
      · have := hker _ e
        rw [map_add] at this
        exact n2 (eq_neg_of_add_eq_zero_left this)
      · have := hker _ e
        rw [map_sub] at this
        exact n1 (sub_eq_zero.mp this)
    have r1 : Q.eval (xc T) * P.eval (xc T') - P.eval (xc T) * Q.eval (xc T') ≠ 0 := by
      intro e0
      rw [← t3, ← t3'] at e0
      have : Q.eval (xc T) * Q.eval (xc T') * (xc (ν T') - xc (ν T)) = 0 := by linear_combination e0
      have := sub_eq_zero.mp ((mul_eq_zero.mp this).resolve_left (mul_ne_zero t2 t2'))
      rcases (xc_eq_iff t1' t1).mp this with e | e
      · exact n1 e
      · exact n2 e
    refine ⟨q1, r1, ?_⟩
    rw [← sub_eq_zero]
    have hroot : ∀ s ∈ S, v0.eval (xc (T + s)) * v1.eval (xc T) - v1.eval (xc (T + s)) * v0.eval (xc T) = 0 ∧
        P.eval (xc (T + s)) * Q.eval (xc T) - Q.eval (xc (T + s)) * P.eval (xc T) = 0 := by
      intro s ms
      obtain ⟨⟨a1, a2, a3⟩, a4⟩ := tS s ms
      obtain ⟨b1, b2⟩ := hs s ms
      constructor
      · have hp := (a4.trans (h.add_null T b2).symm).trans t4.symm
        have := hp.cross
        simp only at this
        linear_combination this
      · rw [map_add, b1, add_zero] at a3
        rw [← a3, ← t3]; ring
    refine eq_zero_of_natDegree_lt_card_of_eval_eq_zero' _ (insert (xc T') (S.image fun s => xc (T + s))) ?_ ?_
    · intro x hx
      rcases Finset.mem_insert.mp hx with rfl | hx
      · simp only [eval_sub, eval_mul, eval_C]; ring
      · obtain ⟨s, ms, rfl⟩ := Finset.mem_image.mp hx
        obtain ⟨z1, z2⟩ := hroot s ms
        simp only [eval_sub, eval_mul, eval_C]
        rw [z1, z2, zero_mul, zero_mul, sub_zero]
    · rw [Finset.card_insert_of_notMem, Finset.card_image_of_injOn fun s hs s' hs' e => t6 s hs s' hs' e]
      · exact lt_of_le_of_lt (dg _ _ _ _ _ _) (by omega)
      · intro hm
        obtain ⟨s, ms, e⟩ := Finset.mem_image.mp hm
        have := (hroot s ms).1
        rw [e] at this
        exact q1 (by linear_combination this)
  obtain ⟨q1, r1, e1⟩ := pair ⟨t1, t2, t3⟩ t4 tS t6 ⟨t1', t2', t3'⟩ t4' n1 n2
  obtain ⟨-, -, e2⟩ := pair ⟨t1', t2', t3'⟩ t4' tS' t6' ⟨t1, t2, t3⟩ t4 n1.symm (fun e => n2 (by rw [e, neg_neg]))
  generalize v0.eval (xc T) = a0 at *
  generalize v1.eval (xc T) = b0 at *
  generalize P.eval (xc T) = P0 at *
  generalize Q.eval (xc T) = Q0 at *
  generalize v0.eval (xc T') = a1 at *
  generalize v1.eval (xc T') = b1 at *
  generalize P.eval (xc T') = P1 at *
  generalize Q.eval (xc T') = Q1 at *
  refine ⟨a1 * Q0 - a0 * Q1, -(a1 * P0 - a0 * P1), b1 * Q0 - b0 * Q1, -(b1 * P0 - b0 * P1), ?_, ?_⟩
  · have : (a1 * Q0 - a0 * Q1) * -(b1 * P0 - b0 * P1) - -(a1 * P0 - a0 * P1) * (b1 * Q0 - b0 * Q1) =
        (b0 * a1 - a0 * b1) * (Q0 * P1 - P0 * Q1) := by ring
    rw [this]
    exact mul_ne_zero q1 r1
  · filter_upwards [good] with X ⟨⟨x1, x2, x3⟩, x4⟩
    refine ⟨x1, PSame.trans ⟨Q.eval (xc X) / (Q0 * P1 - P0 * Q1), div_ne_zero x2 r1, ?_⟩ x4⟩
    have f1 := congrArg (Polynomial.eval (xc X)) e1
    have f2 := congrArg (Polynomial.eval (xc X)) e2
    simp only [eval_mul, eval_sub, eval_C] at f1 f2
    rw [← x3] at f1 f2
    generalize v0.eval (xc X) = v0 at *
    generalize v1.eval (xc X) = v1 at *
    generalize Q.eval (xc X) = q at *
    generalize xc (ν X) = ξ at *
    have g1 : v0 * (Q0 * P1 - P0 * Q1) = q * ((a1 * Q0 - a0 * Q1) * ξ + -(a1 * P0 - a0 * P1)) := by
      apply mul_left_cancel₀ q1
      linear_combination a1 * f1 + a0 * f2
    have g2 : v1 * (Q0 * P1 - P0 * Q1) = q * ((b1 * Q0 - b0 * Q1) * ξ + -(b1 * P0 - b0 * P1)) := by
      apply mul_left_cancel₀ q1
      linear_combination b1 * f1 + b0 * f2
    refine Prod.ext ?_ ?_
    · change v0 = q / _ * _
      rw [div_mul_eq_mul_div, eq_div_iff r1, g1]
    · change v1 = q / _ * _
      rw [div_mul_eq_mul_div, eq_div_iff r1, g2]

end Festa
