import Verif.Lemmas.VeluTwo
/-! The product formulas define a group homomorphism with the given kernel. -/
namespace Festa
open WeierstrassCurve.Affine
variable {L : Type*} [Field L] [DecidableEq L] {A : L}
variable {G : AddSubgroup (MPoint A)} [Fintype G]

/-- An odd map that is additive up to sign is additive. -/
theorem add_of_sign {M N : Type*} [AddCommGroup M] [AddCommGroup N] (f : M → N)
    (hn : ∀ Q, f (-Q) = -f Q) (h : ∀ Q R, f (Q + R) = f Q + f R ∨ f (Q + R) = -(f Q + f R)) (Q R : M) :
    f (Q + R) = f Q + f R := by
  rcases h Q R with e | e
  · exact e
  have key : ∀ Q R, f (Q + R) = -(f Q + f R) → f R + f R = 0 ∨ (f Q + f R) + (f Q + f R) = 0 := by
    intro Q R e
    have h1 := h (Q + R) (-R)
    rw [add_neg_cancel_right, hn, e] at h1
    rcases h1 with h1 | h1
    · right
      calc f Q + f R + (f Q + f R) = f Q - (-(f Q + f R) + -f R) := by abel
        _ = 0 := by rw [← h1, sub_self]
    · left
      have : f Q + (f R + f R) = f Q := by
        conv_rhs => rw [h1]
        abel
      exact add_eq_left.mp this
  have fin : (f Q + f R) + (f Q + f R) = 0 → f (Q + R) = f Q + f R := fun h' => by
    rw [e, neg_eq_iff_add_eq_zero, h']
  rcases key Q R e with k1 | k1
  · rcases key R Q (by rw [add_comm, e, add_comm (f Q)]) with k2 | k2
    · apply fin
      calc f Q + f R + (f Q + f R) = (f Q + f Q) + (f R + f R) := by abel
        _ = 0 := by rw [k1, k2, add_zero]
    · exact fin (by rw [add_comm (f Q)]; exact k2)
  · exact fin k1

/-- The code's isogeny over an algebraically closed field. -/
theorem VD.hom [IsAlgClosed L] (v : VD G) {t : L} (ht : t ^ 2 + A * t + 1 = 0) {T : MPoint A}
    (hT : T ∉ G) (hTx : xc T = t) (hTy : yc T = 0) {A' : L} (hA' : fx G T ^ 2 + A' * fx G T + 1 = 0)
    {k : L} (hk : k ^ 2 * py G ^ 2 = px G ^ 3) :
    A' * A' ≠ 4 ∧ ∃ φ : MPoint A →+ MPoint A', (∀ Q, φ Q = 0 ↔ Q ∈ G) ∧
      ∀ Q, Q ∉ G → xc (φ Q) = fx G Q ∧ yc (φ Q) = k * fy G Q := by
  classical
  have hp := v.px_ne
  have hy := v.py_ne
  have hy2 : py G ^ 2 ≠ 0 := pow_ne_zero 2 hy
  have hdisc : A' * A' ≠ 4 := by
    obtain ⟨e1, e2⟩ := v.edwards ht hT hTx hTy
    obtain ⟨c1, c2⟩ := v.cs_one_ne
    have t1 : 1 - t ≠ 0 := fun h => v.hA (by
      have : t = 1 := (sub_eq_zero.mp h).symm
      rw [this] at ht
      linear_combination (A - 2) * ht)
    have t2 : 1 + t ≠ 0 := fun h => v.hA (by
      have : t = -1 := by linear_combination h
      rw [this] at ht
      linear_combination -(A + 2) * ht)
    have f1 : 1 - fx G T ≠ 0 := fun h => by
      rw [h, mul_zero] at e1
      exact mul_ne_zero hp (mul_ne_zero (pow_ne_zero _ t1) c2) e1
    have f2 : 1 + fx G T ≠ 0 := fun h => by
      rw [h, mul_zero] at e2
      exact mul_ne_zero hp (mul_ne_zero (pow_ne_zero _ t2) c1) e2
    intro h4
    apply mul_ne_zero (pow_ne_zero 2 f1) (pow_ne_zero 2 f2)
    linear_combination (fx G T ^ 2 + 1 - A' * fx G T) * hA' + fx G T ^ 2 * h4
  refine ⟨hdisc, ?_⟩
  have hcurve : ∀ Q, Q ∉ G → (k * fy G Q) * (k * fy G Q) =
      fx G Q * fx G Q * fx G Q + A' * fx G Q * fx G Q + fx G Q := by
    intro Q hQ
    have := v.rel_curve ht hT hTx hA' hQ
    apply mul_left_cancel₀ hy2
    linear_combination this + fy G Q ^ 2 * hk
  have hns : ∀ Q, Q ∉ G → (mont A').Nonsingular (fx G Q) (k * fy G Q) :=
    fun Q hQ => nonsing_of v.h2 hdisc (hcurve Q hQ)
  let f : MPoint A → MPoint A' := fun Q => if h : Q ∈ G then 0 else .some (fx G Q) (k * fy G Q) (hns Q h)
  have f0 : ∀ Q, Q ∈ G → f Q = 0 := fun Q h => dif_pos h
  have f1 : ∀ Q (h : Q ∉ G), f Q = .some (fx G Q) (k * fy G Q) (hns Q h) := fun Q h => dif_neg h
  have fne : ∀ Q, Q ∉ G → f Q ≠ 0 := fun Q h => by rw [f1 Q h]; exact Point.some_ne_zero _
  have fX : ∀ Q, Q ∉ G → xc (f Q) = fx G Q := fun Q h => by rw [f1 Q h]; rfl
  have fY : ∀ Q, Q ∉ G → yc (f Q) = k * fy G Q := fun Q h => by rw [f1 Q h]; rfl
  have fshift : ∀ Q g, g ∈ G → f (Q + g) = f Q := by
    intro Q g hg
    by_cases hQ : Q ∈ G
    · rw [f0 _ hQ, f0 _ (G.add_mem hQ hg)]
    · have hQ' : Q + g ∉ G := fun h => hQ ((G.add_mem_cancel_right hg).mp h)
      refine pt_ext (fne _ hQ') (fne _ hQ) ?_ ?_
      · rw [fX _ hQ, fX _ hQ', fx_shift hg]
      · rw [fY _ hQ, fY _ hQ', fy_shift hg]
  have fneg : ∀ Q, f (-Q) = -f Q := by
    intro Q
    by_cases hQ : Q ∈ G
    · rw [f0 _ hQ, f0 _ (G.neg_mem hQ), neg_zero]
    · have hQ' : -Q ∉ G := fun h => hQ (G.neg_mem_iff.mp h)
      refine pt_ext (fne _ hQ') (neg_ne_zero.mpr (fne _ hQ)) ?_ ?_
      · rw [xc_neg, fX _ hQ, fX _ hQ', fx_neg]
      · rw [yc_neg, fY _ hQ, fY _ hQ', fy_neg v.hodd]; ring
  have fsign : ∀ Q R, f (Q + R) = f Q + f R ∨ f (Q + R) = -(f Q + f R) := by
    intro Q R
    by_cases hQ : Q ∈ G
    · left; rw [f0 _ hQ, zero_add, add_comm, fshift _ _ hQ]
    by_cases hR : R ∈ G
    · left; rw [f0 _ hR, add_zero, fshift _ _ hR]
    by_cases h1 : Q + R ∈ G
    · left
      have e : R = -Q + (Q + R) := by abel
      rw [f0 _ h1]
      conv_rhs => rw [e, fshift _ _ h1, fneg, add_neg_cancel]
    by_cases h3 : Q - R ∈ G
    · -- doubling
      have e : f Q = f R := by
        have : Q = R + (Q - R) := by abel
        rw [this, fshift _ _ h3]
      have e' : f (Q + R) = f (R + R) := by
        have : Q + R = R + R + (Q - R) := by abel
        rw [this, fshift _ _ h3]
      have h1' : R + R ∉ G := fun h => h1 (by
        have : Q + R = R + R + (Q - R) := by abel
        rw [this]; exact G.add_mem h h3)
      rw [e, e']
      have hfy : fy G R ≠ 0 := by
        refine Finset.prod_ne_zero_iff.mpr fun g _ h => h1' ?_
        have := (add_self_iff v.h2 (add_ne hR g)).mpr h
        have e : R + R = -(g.1 + g.1) := by
          rw [← sub_eq_zero, ← this]; abel
        rw [e]; exact G.neg_mem (G.add_mem g.2 g.2)
      have hk0 : k ≠ 0 := by
        rintro rfl
        rw [zero_pow (by norm_num), zero_mul] at hk
        exact pow_ne_zero 3 hp hk.symm
      have hd : f R + f R ≠ 0 := fun h => by
        have := (add_self_iff v.h2 (fne _ hR)).mp h
        rw [fY _ hR] at this
        exact mul_ne_zero hk0 hfy this
      have hx := xc_double v.h2 hd
      rw [fX _ hR, fY _ hR] at hx
      have hx' := v.rel_double h1'
      refine (xc_eq_iff (fne _ h1') hd).mp ?_
      rw [fX _ h1']
      have h4 : (4 : L) ≠ 0 := by
        have : (4 : L) = 2 * 2 := by norm_num
        rw [this]; exact mul_ne_zero v.h2 v.h2
      apply mul_right_cancel₀ (mul_ne_zero h4 (pow_ne_zero 2 (mul_ne_zero hk0 hfy)))
      rw [hx]
      apply mul_left_cancel₀ hy2
      linear_combination hx' + fx G (R + R) * 4 * fy G R ^ 2 * hk
    · -- general case
      have hab : fx G Q ≠ fx G R := by
        intro h
        have n := v.norm_pt' hQ hR
        rw [h, sub_self, mul_zero] at n
        refine mul_ne_zero hp (Finset.prod_ne_zero_iff.mpr fun g _ => ?_) n
        exact sub_ne_zero.mpr (shift_ne hQ hR h1 h3 g)
      have hx : xc (f Q) ≠ xc (f R) := by rwa [fX _ hQ, fX _ hR]
      have hne : f Q + f R ≠ 0 := fun h => hx (by rw [eq_neg_of_add_eq_zero_left h, xc_neg])
      refine (xc_eq_iff (fne _ h1) hne).mp ?_
      have ha := xc_add (fne _ hQ) (fne _ hR) hx
      rw [fX _ hQ, fX _ hR, fY _ hQ, fY _ hR] at ha
      rw [fX _ h1]
      have r1 := v.rel_prod hQ hR h1 h3
      have r2 := v.rel_two ht hT hTx hTy hQ hR h1 h3
      have r3 := v.rel_diff hQ hR h1 h3
      have hT0 : fx G T ≠ 0 := by
        intro h
        rw [h] at hA'
        simp at hA'
      have hsq : (fx G Q - fx G R) ^ 2 ≠ 0 := pow_ne_zero 2 (sub_ne_zero.mpr hab)
      apply mul_right_cancel₀ hsq
      rw [ha]
      have rd : (fx G (Q - R) - fx G (Q + R)) * (fx G Q - fx G R) ^ 2 =
          4 * (k * fy G Q) * (k * fy G R) := by
        apply mul_right_cancel₀ hy2
        linear_combination r3 - 4 * fy G Q * fy G R * hk
      have rs : (fx G (Q - R) + fx G (Q + R)) * (fx G Q - fx G R) ^ 2 =
          2 * sfun A' (fx G Q) (fx G R) := by
        apply mul_left_cancel₀ hT0
        unfold sfun
        linear_combination r1 - r2 - 4 * fx G Q * fx G R * hA'
      apply mul_left_cancel₀ v.h2
      linear_combination rs - rd
  refine ⟨⟨⟨f, f0 0 G.zero_mem⟩, add_of_sign f fneg fsign⟩, fun Q => ?_, fun Q hQ => ⟨fX Q hQ, fY Q hQ⟩⟩
  constructor
  · intro h
    by_contra hQ
    exact fne Q hQ h
  · exact f0 Q

end Festa
