import Verif.Lemmas.Dual
import Mathlib.Algebra.Polynomial.Splits
import Mathlib.GroupTheory.QuotientGroup.Basic
import Mathlib.GroupTheory.Coset.Card
import Mathlib.SetTheory.Cardinal.Finite
/-! Over an algebraically closed field every multiplication by `n ≥ 1` on a Montgomery curve is onto and has a finite
kernel. -/
namespace Festa
open WeierstrassCurve.Affine Polynomial

/-- The kernel of a composition. -/
theorem card_ker_comp {G H J : Type*} [AddCommGroup G] [AddCommGroup H] [AddCommGroup J] (g : G →+ H) (f : H →+ J)
    (hg : Function.Surjective g) : Nat.card (f.comp g).ker = Nat.card g.ker * Nat.card f.ker := by
  let h : (f.comp g).ker →+ f.ker := (g.comp (f.comp g).ker.subtype).codRestrict f.ker (fun x => x.2)
  have hs : Function.Surjective h := by
    rintro ⟨y, hy⟩
    obtain ⟨x, rfl⟩ := hg y
    exact ⟨⟨x, hy⟩, rfl⟩
  have e1 := AddSubgroup.card_eq_card_quotient_mul_card_addSubgroup h.ker
  rw [Nat.card_congr (QuotientAddGroup.quotientKerEquivOfSurjective h hs).toEquiv, mul_comm] at e1
  rw [e1]
  congr 1
  refine Nat.card_congr ⟨fun x => ⟨x.1.1, congrArg Subtype.val x.2⟩, fun x => ⟨⟨x.1, ?_⟩, Subtype.ext x.2⟩, fun _ => rfl,
    fun _ => rfl⟩
  rw [AddMonoidHom.mem_ker, AddMonoidHom.comp_apply, AddMonoidHom.mem_ker.mp x.2, map_zero]

variable {L : Type*} [Field L] [DecidableEq L] {A : L}

/-- Few points have a given abscissa. -/
theorem xc_fibre_finite (x : L) : {P : MPoint A | xc P = x}.Finite := by
  by_cases h : ∃ P : MPoint A, P ≠ 0 ∧ xc P = x
  · obtain ⟨P, hP, rfl⟩ := h
    refine (Set.toFinite {0, P, -P}).subset fun Q hQ => ?_
    by_cases hQ0 : Q = 0
    · exact .inl hQ0
    · exact .inr ((xc_eq_iff hQ0 hP).mp hQ)
  · refine (Set.toFinite {0}).subset fun Q hQ => ?_
    by_contra hQ0
    exact h ⟨Q, hQ0, hQ⟩

/-- A set of points with finitely many abscissae. -/
theorem finite_of_xc {s : Set L} (hs : s.Finite) : {P : MPoint A | xc P ∈ s}.Finite :=
  Set.Finite.preimage' hs fun x _ => xc_fibre_finite x

variable [IsAlgClosed L]

/-- A chain of points with orders growing powers of two. -/
theorem exists_chain (h2 : (2 : L) ≠ 0) (hA : A * A ≠ 4) : ∃ V : Nat → MPoint A, (∀ k, 2 ^ (k + 1) • V k = 0) ∧
    (∀ k, V (k + 1) + V (k + 1) ≠ 0) ∧ Function.Injective fun k => xc (V k) := by
  obtain ⟨T, T', hTT⟩ := exists_two h2 hA
  have hT : T ≠ 0 := by
    intro e
    have := (hTT 1 0).mp (by rw [e]; simp)
    omega
  have hT2 : T + T = 0 := by
    have := (hTT 2 0).mpr ⟨dvd_rfl, dvd_zero _⟩
    rw [zero_zsmul, add_zero] at this
    rw [← two_nsmul, ← natCast_zsmul]; exact this
  choose V hV using fun k => exists_two_pow_half h2 hA k T
  refine ⟨V, fun k => ?_, fun k e => hT ?_, xc_chain_inj h2 hT hT2 hV⟩
  · rw [pow_succ, mul_comm, mul_nsmul', hV, two_nsmul, hT2]
  · rw [← hV (k + 1), pow_succ, mul_nsmul', two_nsmul, e, nsmul_zero]

omit [DecidableEq L] in
/-- A polynomial without roots but zero. -/
theorem poly_of_root_zero {G : L[X]} (h0 : ∀ x, x ≠ 0 → G.eval x ≠ 0) : ∃ c : L, ∃ m ≤ G.natDegree, G = C c * X ^ m := by
  have hG : G ≠ 0 := by
    rintro rfl
    exact h0 1 one_ne_zero (by simp)
  have hs := IsAlgClosed.splits G
  have hr : G.roots = Multiset.replicate (Multiset.card G.roots) 0 := by
    rw [Multiset.eq_replicate_card]
    intro x hx
    by_contra hx0
    exact h0 x hx0 (isRoot_of_mem_roots hx)
  refine ⟨G.leadingCoeff, Multiset.card G.roots, card_roots' G, ?_⟩
  conv_lhs => rw [hs.eq_prod_roots, hr]
  simp

/-- Multiplication by an odd number is onto. -/
theorem smul_surj_odd (h2 : (2 : L) ≠ 0) (hA : A * A ≠ 4) {n : Nat} (hn : n % 2 = 1) (Y : MPoint A) : ∃ X, n • X = Y := by
  obtain ⟨V, tV, dV, iV⟩ := exists_chain h2 hA
  obtain ⟨U, W, hUW⟩ := exists_mul_poly h2 hA n
  by_contra hno
  push Not at hno
  -- all points of the chain are multiples
  have hV : ∀ k, ∃ X : MPoint A, n • X = V k := by
    intro k
    obtain ⟨u, v, huv⟩ := Nat.isCoprime_iff_coprime.mpr (show Nat.Coprime n (2 ^ (k + 1)) from
      Nat.Coprime.pow_right _ (Nat.coprime_two_right.mpr (Nat.odd_iff.mpr hn)))
    refine ⟨u • V k, ?_⟩
    rw [← natCast_zsmul, ← mul_zsmul, mul_comm]
    calc (u * n : Int) • V k = (u * n + v * (2 ^ (k + 1) : Nat) : Int) • V k := by
          rw [add_zsmul, mul_zsmul _ v, natCast_zsmul, tV, zsmul_zero, add_zero]
      _ = V k := by rw [huv, one_zsmul]
  have miss : ∀ k X, n • X ≠ Y + V k := by
    intro k X h
    obtain ⟨X', hX'⟩ := hV k
    exact hno (X - X') (by rw [nsmul_sub, h, hX', add_sub_cancel_right])
  -- the polynomial of a point that is missed
  have mono : ∀ k, ∃ c : L, ∃ m ≤ max U.natDegree W.natDegree, U - C (xc (Y + V k)) * W = C c * X ^ m := by
    intro k
    have hZ : Y + V k ≠ 0 := fun e => miss k 0 (by rw [nsmul_zero, e])
    obtain ⟨c, m, hm, e⟩ := poly_of_root_zero (G := U - C (xc (Y + V k)) * W) (by
      intro x hx h
      rw [eval_sub, eval_mul, eval_C, sub_eq_zero] at h
      obtain ⟨P, hP, rfl⟩ := exists_xc h2 hA x
      have k1 := hUW P hP hx
      have nP : n • P ≠ 0 := by
        intro e
        rw [e] at k1
        exact k1.1 (by rw [h, k1.2, mul_zero])
      rw [krep_iff nP] at k1
      have := mul_right_cancel₀ k1.1 (h.symm.trans k1.2)
      rcases (xc_eq_iff nP hZ).mp this.symm with e | e
      · exact miss k P e
      · exact miss k (-P) (by rw [smul_neg, e, neg_neg]))
    refine ⟨c, m, hm.trans ((natDegree_sub_le _ _).trans (max_le_max le_rfl ?_)), e⟩
    exact natDegree_C_mul_le _ _
  choose c m hm hcm using mono
  -- two of them have the same exponent
  have inf : (Set.range fun k => xc (Y + V k)).Infinite := by
    intro hfin
    refine Set.infinite_range_of_injective (f := fun k => Y + V k) (fun k l e => iV ?_)
      ((finite_of_xc hfin).subset ?_)
    · exact congrArg xc (add_left_cancel e)
    · rintro _ ⟨k, rfl⟩
      exact ⟨k, rfl⟩
  obtain ⟨k, l, hne, hml⟩ : ∃ k l, xc (Y + V k) ≠ xc (Y + V l) ∧ m k = m l := by
    by_contra hcon
    push Not at hcon
    apply inf
    have : (Set.range fun k => xc (Y + V k)) ⊆
        ⋃ i ∈ Finset.range (max U.natDegree W.natDegree + 1), {x | ∃ k, m k = i ∧ xc (Y + V k) = x} := by
      rintro _ ⟨k, rfl⟩
      simp only [Set.mem_iUnion]
      exact ⟨m k, Finset.mem_range.mpr (Nat.lt_succ_of_le (hm k)), k, rfl, rfl⟩
    refine Set.Finite.subset (Set.Finite.biUnion (Finset.finite_toSet _) fun i _ => ?_) this
    refine Set.Subsingleton.finite ?_
    rintro _ ⟨k, rfl, rfl⟩ _ ⟨l, hl, rfl⟩
    by_contra hx
    exact hcon k l hx hl.symm
  -- so the abscissa of the multiple is constant
  have hW : ∃ w, W = C w * X ^ m k := by
    refine ⟨(c k - c l) / (xc (Y + V l) - xc (Y + V k)), ?_⟩
    have hd : xc (Y + V l) - xc (Y + V k) ≠ 0 := sub_ne_zero.mpr (Ne.symm hne)
    have e1 := hcm k
    have e2 := hcm l
    rw [← hml] at e2
    have e3 : C (xc (Y + V l) - xc (Y + V k)) * W = C (c k - c l) * X ^ m k := by
      rw [C_sub, C_sub]; linear_combination e1 - e2
    have e4 : W = C (xc (Y + V l) - xc (Y + V k))⁻¹ * (C (xc (Y + V l) - xc (Y + V k)) * W) := by
      rw [← mul_assoc, ← C_mul, inv_mul_cancel₀ hd, C_1, one_mul]
    rw [e4, e3, ← mul_assoc, ← C_mul, div_eq_inv_mul]
  obtain ⟨w, hw⟩ := hW
  have hU : ∃ u, U = C u * X ^ m k := by
    refine ⟨c k + xc (Y + V k) * w, ?_⟩
    have e1 := hcm k
    rw [hw] at e1
    rw [C_add, C_mul]
    linear_combination e1
  obtain ⟨u, hu⟩ := hU
  have const : ∀ i, w ≠ 0 ∧ xc (V (i + 1)) = u / w := by
    intro i
    obtain ⟨P, hP⟩ := hV (i + 1)
    have V0 : V (i + 1) ≠ 0 := fun e => dV i (by rw [e, add_zero])
    have P0 : P ≠ 0 := fun e => V0 (by rw [← hP, e, nsmul_zero])
    have x0 : xc P ≠ 0 := by
      intro e
      have := (add_self_iff h2 P0).mpr (yc_of_xc_zero e)
      exact dV i (by rw [← hP, ← nsmul_add, this, nsmul_zero])
    have k1 := hUW P P0 x0
    rw [hP, krep_iff V0, hu, hw] at k1
    simp only [eval_mul, eval_C, eval_pow, eval_X] at k1
    have w0 : w ≠ 0 := fun e => k1.1 (by rw [e, zero_mul])
    refine ⟨w0, ?_⟩
    rw [eq_div_iff w0]
    have := k1.2
    rw [← mul_assoc] at this
    exact (mul_right_cancel₀ (pow_ne_zero _ x0) this).symm
  have := iV ((const 0).2.trans (const 1).2.symm)
  omega

/-- Every multiplication is onto. -/
theorem smul_surj (h2 : (2 : L) ≠ 0) (hA : A * A ≠ 4) {n : Nat} (hn : n ≠ 0) (Y : MPoint A) : ∃ X, n • X = Y := by
  obtain ⟨k, m, hm, rfl⟩ := Nat.exists_eq_two_pow_mul_odd hn
  obtain ⟨Z, hZ⟩ := exists_two_pow_half h2 hA k Y
  obtain ⟨X, hX⟩ := smul_surj_odd h2 hA (Nat.odd_iff.mp hm) Z
  exact ⟨X, by rw [mul_nsmul', hX, hZ]⟩

/-- The points killed by a number are finitely many. -/
theorem torsion_finite (h2 : (2 : L) ≠ 0) (hA : A * A ≠ 4) {n : Nat} (hn : n ≠ 0) : {X : MPoint A | n • X = 0}.Finite := by
  obtain ⟨V, tV, dV, iV⟩ := exists_chain h2 hA
  obtain ⟨U, W, hUW⟩ := exists_mul_poly h2 hA n
  have hW : W ≠ 0 := by
    rintro rfl
    obtain ⟨P, hP⟩ := smul_surj h2 hA hn (V 1)
    have V0 : V 1 ≠ 0 := fun e => dV 0 (by rw [e, add_zero])
    have P0 : P ≠ 0 := fun e => V0 (by rw [← hP, e, nsmul_zero])
    have x0 : xc P ≠ 0 := by
      intro e
      have := (add_self_iff h2 P0).mpr (yc_of_xc_zero e)
      exact dV 0 (by rw [← hP, ← nsmul_add, this, nsmul_zero])
    have k1 := hUW P P0 x0
    rw [hP, krep_iff V0] at k1
    exact k1.1 (by simp)
  refine (finite_of_xc (s := {0} ∪ (W.roots.toFinset : Set L)) ((Set.toFinite _).union (Finset.finite_toSet _))).subset ?_
  intro P hP
  by_cases hx : xc P = 0
  · exact .inl hx
  · right
    have P0 : P ≠ 0 := by rintro rfl; exact hx rfl
    have k1 := hUW P P0 hx
    rw [show n • P = 0 from hP] at k1
    exact Multiset.mem_toFinset.mpr ((mem_roots hW).mpr k1.2)

end Festa
