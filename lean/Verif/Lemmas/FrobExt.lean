import Verif.Lemmas.Frob
import Verif.Lemmas.ECLadder
import Mathlib.Algebra.Polynomial.Roots
/-! Multiplication by `n` is a rational map, so an identity between it and a power of Frobenius on the
2-power torsion holds everywhere. -/
namespace Festa
open WeierstrassCurve.Affine Polynomial
variable {L : Type*} [Field L] [DecidableEq L] {A : L}

theorem crv_good (h2 : (2 : L) ≠ 0) (hA : A * A ≠ 4) : (⟨A, (A + 2) / 4⟩ : Crv L).Good := by
  have h4 : (4 : L) ≠ 0 := by
    have : (4 : L) = 2 * 2 := by norm_num
    rw [this]; exact mul_ne_zero h2 h2
  exact ⟨h2, hA, by field_simp⟩

theorem krep_iff {X Z : L} {P : MPoint A} (hP : P ≠ 0) : KRep X Z P ↔ Z ≠ 0 ∧ X = xc P * Z := by
  rcases P with _ | ⟨x, y, k⟩
  · exact absurd rfl hP
  · rfl

/-- The abscissa of a multiple is a quotient of polynomials in the abscissa. -/
theorem exists_mul_poly (h2 : (2 : L) ≠ 0) (hA : A * A ≠ 4) (n : Nat) :
    ∃ U V : L[X], ∀ P : MPoint A, P ≠ 0 → xc P ≠ 0 → KRep (U.eval (xc P)) (V.eval (xc P)) (n • P) := by
  have hE := crv_good h2 hA
  induction n using Nat.strong_induction_on with
  | _ n ih =>
    rcases Nat.lt_or_ge n 2 with h | h
    · interval_cases n
      · exact ⟨1, 0, fun P _ _ => by rw [zero_nsmul]; exact ⟨by simp, by simp⟩⟩
      · exact ⟨X, 1, fun P hP _ => by rw [one_nsmul, krep_iff hP]; simp⟩
    · obtain ⟨m, hm | hm⟩ := Nat.even_or_odd' n
      · obtain ⟨U, V, hUV⟩ := ih m (by omega)
        refine ⟨(U + V) * (U + V) * ((U - V) * (U - V)),
          (((U + V) * (U + V) - (U - V) * (U - V)) * C ((A + 2) / 4) + (U - V) * (U - V)) *
            ((U + V) * (U + V) - (U - V) * (U - V)), fun P hP hx => ?_⟩
        have := krep_dbl hE (hUV P hP hx)
        rw [← mul_nsmul', ← hm] at this
        simpa [Crv.xDbl] using this
      · obtain ⟨U0, V0, h0⟩ := ih m (by omega)
        obtain ⟨U1, V1, h1⟩ := ih (m + 1) (by omega)
        refine ⟨((U0 - V0) * (U1 + V1) + (U0 + V0) * (U1 - V1)) * ((U0 - V0) * (U1 + V1) + (U0 + V0) * (U1 - V1)),
          X * (((U0 - V0) * (U1 + V1) - (U0 + V0) * (U1 - V1)) * ((U0 - V0) * (U1 + V1) - (U0 + V0) * (U1 - V1))),
          fun P hP hx => ?_⟩
        have k0 := h0 P hP hx
        have k1 := h1 P hP hx
        rcases P with _ | ⟨x, y, k⟩
        · exact absurd rfl hP
        rw [succ_nsmul] at k1
        have := krep_xadd hE k0 k1 hx (one_ne_zero) (mul_one _).symm
        rw [← add_assoc, ← two_nsmul, ← mul_nsmul', ← succ_nsmul, ← hm] at this
        simp only [xAdd, mul_one, one_mul] at this
        simpa [xc] using this

/-- A chain of points that are halves of each other has infinitely many abscissae. -/
theorem xc_chain_inj (h2 : (2 : L) ≠ 0) {T : MPoint A} (hT : T ≠ 0) (hT2 : T + T = 0) {V : Nat → MPoint A}
    (hV : ∀ k, 2 ^ k • V k = T) : Function.Injective fun k => xc (V k) := by
  have ne : ∀ k, V k ≠ 0 := fun k h => hT (by rw [← hV k, h, nsmul_zero])
  have key : ∀ k l, k < l → xc (V k) ≠ xc (V l) := by
    intro k l hkl e
    have z : 2 ^ l • V k = 0 := by
      obtain ⟨m, rfl⟩ : ∃ m, l = k + 1 + m := ⟨l - (k + 1), by omega⟩
      rw [pow_add, mul_comm, mul_nsmul', pow_succ, mul_comm, mul_nsmul', hV, two_nsmul, hT2, nsmul_zero]
    rcases (xc_eq_iff (ne k) (ne l)).mp e with e | e
    · exact hT (by rw [← hV l, ← e, z])
    · exact hT (by rw [← hV l, ← neg_eq_zero, ← smul_neg, ← e, z])
  intro k l e
  rcases Nat.lt_trichotomy k l with h | h | h
  · exact absurd e (key _ _ h)
  · exact h
  · exact absurd e.symm (key _ _ h)

omit [DecidableEq L] in
theorem yc_of_xc_zero {P : MPoint A} (hx : xc P = 0) : yc P = 0 := by
  rcases P with _ | ⟨x, y, k⟩
  · rfl
  · have := curve_eq k
    change x = 0 at hx
    subst hx
    have : y * y = 0 := by linear_combination this
    exact (mul_self_eq_zero.mp this)

/-- If two homomorphisms of a group agree up to sign everywhere, and are opposite on a point which does
not have order dividing two in the image, they are opposite. -/
theorem opp_of_or {G H : Type*} [AddCommGroup G] [AddCommGroup H] {α β : G →+ H} (h : ∀ X, α X = β X ∨ α X = -β X)
    {T : G} (hT : α T = -β T) (hT2 : β T + β T ≠ 0) (X : G) : α X = -β X := by
  rcases h X with e | e
  · rcases h (X + T) with e' | e'
    · rw [map_add, map_add, e, hT] at e'
      have := add_left_cancel e'
      exact absurd (by rw [← neg_eq_iff_add_eq_zero, this]) hT2
    · rw [map_add, map_add, e, hT, neg_add] at e'
      rw [e]; exact add_right_cancel e'
  · exact e

variable [IsAlgClosed L]

/-- From the 2-power torsion to all points. -/
theorem frob_ext (h2 : (2 : L) ≠ 0) (hA : A * A ≠ 4) (f : L →+* L) (h : f A = A) {p q : Nat} (hp : p % 2 = 1)
    (hf : ∀ w, f w = w ^ q)
    (ht : ∀ (k : Nat) (X : MPoint A), 2 ^ k • X = 0 → fixHom f h X = -((p : Int) • X)) (X : MPoint A) :
    fixHom f h X = -((p : Int) • X) := by
  obtain ⟨T, T', hTT⟩ := exists_two h2 hA
  have hT : T ≠ 0 := by
    intro e
    have := (hTT 1 0).mp (by rw [e]; simp)
    omega
  have hT2 : T + T = 0 := by
    have := (hTT 2 0).mpr ⟨dvd_rfl, dvd_zero _⟩
    rw [zero_zsmul, add_zero] at this
    rw [← two_nsmul, ← natCast_zsmul]; exact this
  choose V hV using fun k => exists_two_pow_half h2 hA k T
  have ne : ∀ k, V k ≠ 0 := fun k h => hT (by rw [← hV k, h, nsmul_zero])
  have tors : ∀ k, 2 ^ (k + 1) • V k = 0 := fun k => by
    rw [pow_succ, mul_comm, mul_nsmul', hV, two_nsmul, hT2]
  have dbl : ∀ k, V (k + 1) + V (k + 1) ≠ 0 := fun k e => hT (by
    rw [← hV (k + 1), pow_succ, mul_nsmul', two_nsmul, e, nsmul_zero])
  have xne : ∀ k, xc (V (k + 1)) ≠ 0 := fun k e => dbl k ((add_self_iff h2 (ne _)).mpr (yc_of_xc_zero e))
  obtain ⟨U, W, hUW⟩ := exists_mul_poly h2 hA p
  have hpoly : U = Polynomial.X ^ q * W := by
    rw [← sub_eq_zero]
    apply Polynomial.eq_zero_of_infinite_isRoot
    refine Set.Infinite.mono (s := Set.range fun k => xc (V (k + 1))) ?_ (Set.infinite_range_of_injective fun k l e => by
      simpa using xc_chain_inj h2 hT hT2 hV e)
    rintro _ ⟨k, rfl⟩
    have h1 := hUW _ (ne (k + 1)) (xne k)
    have h3 := ht _ _ (tors (k + 1))
    have h4 : (p • V (k + 1)) ≠ 0 := by
      intro e
      exact fix_ne f h (ne (k + 1)) (by rw [h3, natCast_zsmul, e, neg_zero])
    have h5 : xc (p • V (k + 1)) = xc (V (k + 1)) ^ q := by
      rw [← hf, ← xc_fix f h, h3, xc_neg, natCast_zsmul]
    rw [krep_iff h4, h5] at h1
    simp [h1.2]
  have hor : ∀ X : MPoint A, fixHom f h X = (zsmulAddGroupHom (p : Int)) X ∨ fixHom f h X = -(zsmulAddGroupHom (p : Int)) X := by
    intro X
    by_cases h0 : X = 0
    · left; rw [h0, map_zero, map_zero]
    by_cases hx : xc X = 0
    · right
      exact ht 1 X (by rw [pow_one, two_nsmul]; exact (add_self_iff h2 h0).mpr (yc_of_xc_zero hx))
    have h1 := hUW X h0 hx
    rw [hpoly] at h1
    simp only [eval_mul, eval_pow, eval_X] at h1
    have h4 : p • X ≠ 0 := by
      intro e
      rw [e] at h1
      exact h1.1 (by rw [h1.2, mul_zero])
    rw [krep_iff h4] at h1
    have h5 := mul_right_cancel₀ h1.1 h1.2
    rw [← hf, ← xc_fix f h] at h5
    have := (xc_eq_iff (fix_ne f h h0) h4).mp h5
    simpa using this
  refine opp_of_or hor (T := V 2) (ht _ _ (tors 2)) ?_ X
  intro e
  have e' : (p : Nat) • (V 2 + V 2) = 0 := by rw [nsmul_add]; simpa using e
  have e2 : 2 ^ 2 • (V 2 + V 2) = 0 := by rw [← two_nsmul, ← mul_nsmul']; exact tors 2
  have hc : Nat.Coprime p (2 ^ 2) := (Nat.coprime_pow_right_iff (by norm_num) p 2).mpr (by
    rw [Nat.coprime_comm, Nat.coprime_two_left, Nat.odd_iff]; exact hp)
  have o1 := addOrderOf_dvd_of_nsmul_eq_zero e'
  have o2 := addOrderOf_dvd_of_nsmul_eq_zero e2
  have := Nat.eq_one_of_dvd_coprimes hc o1 o2
  exact dbl 1 (AddMonoid.addOrderOf_eq_one_iff.mp this)

end Festa
