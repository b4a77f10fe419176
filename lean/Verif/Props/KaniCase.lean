import Verif.Props.Kani
/-! The small version of the scheme as a concrete case of C72 and of the inversion in C54. -/
namespace Festa

/-- The coefficients of the curves met, and the choice of the factor. -/
theorem toy_kani_curves : toyEA'.A ≠ 0 ∧ toyEA'.A * toyEA'.A ≠ 3 ∧ 2 * (toyEA'.A * toyEA'.A) ≠ 9 ∧ toyE3.A ≠ -toyEA'.A ∧
    toyE4.A ≠ -toyEA'.A ∧ (toyE3.jInvariant ≠ toyEA'.jInvariant ∨ toyE4.jInvariant ≠ toyEA'.jInvariant) := by
  decide +kernel

/-- The point of order two below the first point of the basis is not `(0, 0)`. -/
theorem toy_half : xc ((toyS.l / 2) • tPb) ≠ 0 := by
  have m : PRep (toyE0.mulD toyPb (toyS.l / 2)) ((toyS.l / 2) • tPb) := prep_mulD toyE0_good tPb_rep (toyS.l / 2)
  have c : (toyE0.mulD toyPb (toyS.l / 2)).X ≠ 0 ∧ (toyE0.mulD toyPb (toyS.l / 2)).Z ≠ 0 := by decide +kernel
  generalize (toyS.l / 2) • tPb = Q at m
  rcases Q with _ | ⟨x, y, h⟩
  · exact absurd m c.2
  · exact fun h => c.1 (m.2.1.trans (by rw [show x = 0 from h, zero_mul]))

/-- A case of `C72_kani`: the chain of the small version computes the map of Kani's lemma. -/
example : ∃ (φA1 : MPoint toyE0.A →+ MPoint toyEA'.A) (φA2 : MPoint toyEA'.A →+ MPoint toyEA.A)
    (φ1 : MPoint toyE0.A →+ MPoint toyE1.A) (φ2 : MPoint toyEA.A →+ MPoint toyE2.A)
    (ψ1 : MPoint toyE1.A →+ MPoint toyE0.A) (ψ : MPoint toyE2.A →+ MPoint toyEA'.A) (F : CPt Toy → CPt Toy),
    KeyRel toyS toyPk toySk φA1 φA2 tPb tQb tPd1 tQd1 tPA tQA ∧
    OutRel toyS toyPk toyM toyOut φ1 φ2 tPb tQb tPd1 tQd1 (toySk.a11 • φA2 (φA1 tPb)) (toySk.a22 • φA2 (φA1 tQb)) tPA tQA ∧
    (∀ X, ψ1 (φ1 X) = 343 • X) ∧ (∀ X, ψ (φ2 (φA2 X)) = (1849 * 169) • X) ∧
    (∀ images, productIsogeny ⟨toyE1, toyE2⟩ ⟨toyR1, toygP⟩ ⟨toyS1, toygQ⟩ images toyC.thetaLen toyC.strategy =
      some (⟨toyE3, toyE4⟩, images.map F)) ∧
    (Reads toyEA' toyE3 (E := ⟨toyE1, toyE2⟩) (fun X => (F X).P1) (fun x => 1 • φA1 (ψ1 x.1) - 5 • ψ x.2) ∨
      Reads toyEA' toyE4 (E := ⟨toyE1, toyE2⟩) (fun X => (F X).P2) (fun x => 1 • φA1 (ψ1 x.1) - 5 • ψ x.2)) := by
  obtain ⟨φA1, φA2, L2, -, -, hkey, hb⟩ := toy_key
  obtain ⟨φ1, φ2, hout, -, -⟩ := toy_value hkey hb
  obtain ⟨kP, kQ⟩ := kernel_second toyS toy_sound toyPk toySk toyM toyOut toy_b hkey hout toy_glue.1 toy_glue.2.1 toy_glue.2.2.1
    toy_glue.2.2.2.1 toy_glue.2.2.2.2.1 toy_glue.2.2.2.2.2
  have kR : PRep toyR1 (φ1 (toyM.b11 • tPb)) := by rw [map_nsmul]; exact hout.r1
  have kS : PRep toyS1 (φ1 (toyM.b22 • tQb)) := by rw [map_nsmul]; exact hout.s1
  obtain ⟨c0, c3, c9, n3, n4, -⟩ := toy_kani_curves
  obtain ⟨ψ1, ψ, ⟨l1, -⟩, ⟨l2, -⟩, E3, E4, F, -, -, hF, hr⟩ := C72_kani toyP toy_card (by norm_num) (E0 := toyS.E0) (EA := toySk.EA')
    (E := ⟨toyOut.E1, toyOut.E2⟩) rfl hout.isog1 hkey.isog1 (hkey.isog2.comp hout.isog2) (by decide +kernel) (by decide +kernel)
    (by decide +kernel) (m1 := 1) (m2 := 5) (n := 23) (g := toyS.g2) (by norm_num) (by norm_num) (by norm_num) (by decide +kernel)
    (by decide +kernel) (p0 := toyM.b11 • tPb) (q0 := toyM.b22 • tQb)
    (IsBasis.smul_units (n := 2 ^ (23 + 2)) toy_b (by decide +kernel) (by decide +kernel))
    (P := ⟨toyR1, toygP⟩) (Q := ⟨toyS1, toygQ⟩) kR kP kS kQ
    toy_glue_eq toyChain21.jac c0 c3 c9
  have hp := toy_product
  rw [show toyC.thetaLen = 23 from rfl] at hp
  have hp := (hF _ _ toy_strategy).symm.trans hp
  simp only [Option.some.injEq, Prod.mk.injEq, EProd.mk.injEq] at hp
  obtain ⟨⟨rfl, rfl⟩, -⟩ := hp
  exact ⟨φA1, φA2, φ1, φ2, ψ1, ψ, F, hkey, hout, l1, l2, fun images => hF _ _ toy_strategy,
    hr.imp (fun h => h n3) (fun h => h n4)⟩

/-- The points on `EA'`. -/
theorem toy_generic {φA1 : MPoint toyE0.A →+ MPoint toyEA'.A} (p1 : PRep toySkP1 (φA1 (tPb + tPd1))) {L : MPoint toyEA'.A}
    (hL : PRep toyl1 L ∨ PRep toyl2 L) :
    AxisFree 343 (2 ^ 25 • φA1 (tPb + tPd1)) (169 • (2 ^ 25 • L)) ∧
    (∀ P2 : MPoint toyEA'.A, PRep toySkP2 P2 → AxisFree 169 P2 (343 • (2 ^ 25 • L))) ∧
    ChainFree 343 (169 • (2 ^ 25 • L)) ∧ ChainFree 169 (343 • (2 ^ 25 • L)) := by
  rcases hL with hl | hl
  · have m := prep_mulD toyEA'_good hl (2 ^ 25)
    have n := prep_mulD toyEA'_good m 169
    have k := prep_mulD toyEA'_good m 343
    exact ⟨free_axis toyEA'_good n (prep_mulD toyEA'_good p1 (2 ^ 25)) (by norm_num) toy_images.2.2.1,
      fun P hP => free_axis toyEA'_good k hP (by norm_num) toy_images.2.2.2.2.1,
      chainFree_of_order (by norm_num) (order_pow toyEA'_good n (r := 7) (e := 2) (by norm_num) toy_images.2.2.2.2.2.2.1),
      chainFree_of_order (by norm_num) (order_pow toyEA'_good k (r := 13) (e := 1) (by norm_num) toy_images.2.2.2.2.2.2.2.2.1)⟩
  · have m := prep_mulD toyEA'_good hl (2 ^ 25)
    have n := prep_mulD toyEA'_good m 169
    have k := prep_mulD toyEA'_good m 343
    refine ⟨free_axis toyEA'_good n (prep_mulD toyEA'_good p1 (2 ^ 25)) (by norm_num) toy_images.2.2.2.1,
      fun P hP => free_axis toyEA'_good k hP (by norm_num) toy_images.2.2.2.2.2.1, ?_,
      chainFree_of_order (by norm_num) (order_pow toyEA'_good k (r := 13) (e := 1) (by norm_num) toy_images.2.2.2.2.2.2.2.2.2)⟩
    have ho := order_pow toyEA'_good n (r := 7) (e := 1) (by norm_num) toy_images.2.2.2.2.2.2.2.1
    have hd : ∀ t, t ≤ 8 → 1 ≤ t → ¬7 ^ (1 + 1) ∣ 343 >>> t ∧
      (Nat.testBit 343 (t - 1) = true → ¬7 ^ (1 + 1) ∣ 2 * (343 >>> t)) := by decide +kernel
    intro t ht1 ht2
    obtain ⟨h1, h2⟩ := hd t (ht2.trans (by decide +kernel)) ht1
    exact ⟨fun h0 => h1 (ho ▸ addOrderOf_dvd_of_nsmul_eq_zero h0), fun hb h0 =>
      h2 hb (ho ▸ addOrderOf_dvd_of_nsmul_eq_zero h0)⟩

/-- The inversion, a case of `C54_invert_partial` in which all its hypotheses are proved. -/
example : toyS.trapdoorInverse true 20 toyOut toySk = some toyM := by
  obtain ⟨φA1, φA2, L2, -, -, hkey, hb⟩ := toy_key
  obtain ⟨φ1, φ2, hout, -, -⟩ := toy_value hkey hb
  obtain ⟨c0, c3, c9, -, -, -⟩ := toy_kani_curves
  refine C54_invert_partial toyP toy_card (by norm_num) true 20 toyS toy_sound toy_norm rfl (by decide +kernel) (by decide +kernel)
    toyPk toySk toyM toyOut toy_b toy_half toy_b1 toy_bA hkey hout
    (by decide +kernel) (by decide +kernel) (by decide +kernel) (by decide +kernel) (by decide +kernel) (by decide +kernel)
    toy_tb1 tX1_rep tY1_rep toy_bx toy_tb2 tX2_rep tY2_rep toy_by toy_glue.1 toy_glue.2.1 toy_glue.2.2.1
    toy_glue.2.2.2.1 toy_glue.2.2.2.2.1 toy_glue.2.2.2.2.2 (by decide +kernel) toy_strategy toy_glue_eq toyChain21.jac c0 c3 c9 ?_
  · intro E34 I1 I2 l1 l2 h hch L hL
    have h := Option.some.inj (toy_product.symm.trans h)
    simp only [Prod.mk.injEq, List.cons.injEq, and_true] at h
    obtain ⟨rfl, rfl, rfl⟩ := h
    obtain ⟨rfl, rfl⟩ := Prod.mk.inj (Option.some.inj (toy_choose.symm.trans hch))
    exact toy_generic hkey.p1 hL

end Festa
