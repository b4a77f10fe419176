import Verif.Props.SchemeCase
import Verif.Props.ProductHom
import Verif.Lemmas.ToyChainData
/-! The chain of the small version of the scheme as a concrete case of C68. -/
namespace Festa

theorem toy_ker_on : toyE1.onCurve toyR1 = true ∧ toyE1.onCurve toyS1 = true ∧ toyE2.onCurve toygP = true ∧
    toyE2.onCurve toygQ = true ∧ toyE1.isBasis toyR1 toyS1 2 24 = true ∧ toyE2.isBasis toygP toygQ 2 24 = true ∧
    toyE3.onCurve toyI11 = true ∧ toyE3.onCurve toyI21 = true ∧ toyE4.onCurve toyI12 = true ∧ toyE4.onCurve toyI22 = true := by
  decide +kernel

theorem toy_good34 : toyE3.Good ∧ toyE4.Good := by refine ⟨⟨?_, ?_, ?_⟩, ⟨?_, ?_, ?_⟩⟩ <;> decide +kernel

theorem toy_glue_eq : gluingIsogeny ⟨toyE1, toyE2⟩ (EProd.doubleIter ⟨toyE1, toyE2⟩ ⟨toyR1, toygP⟩ (23 - 1))
    (EProd.doubleIter ⟨toyE1, toyE2⟩ ⟨toyS1, toygQ⟩ (23 - 1)) [⟨toyR1, toygP⟩, ⟨toyS1, toygQ⟩] =
      (ThStr.new toycO21, [toycK21, toycL21]) := by
  have h := toyGlue_any
  rw [show 23 - 1 = 22 from rfl]
  rw [gluing_eq] at h ⊢
  simp only [List.map_cons, List.map_nil, Bool.and_eq_true, decide_eq_true_eq, ThStr.new] at h
  obtain ⟨⟨h1, h2⟩, h3⟩ := h
  rw [h1]
  simp only [List.map_cons, List.map_nil, h2, h3]

theorem toy_strategy : IsStrategy toyC.thetaLen toyC.strategy := by
  obtain ⟨S, hS, h⟩ := parseStrategy_sound 50 toyC.thetaLen toyC.strategy [] (by decide +kernel)
  rw [List.append_nil] at hS
  rw [hS]; exact h

/-- The case: the images the inversion of the trapdoor function uses determine, up to signs of the second
ones, the images of all combinations of the points they are images of, and the combinations that
vanish. -/
example : ∃ F : CPt Toy → CPt Toy,
    (∀ images, productIsogeny ⟨toyE1, toyE2⟩ ⟨toyR1, toygP⟩ ⟨toyS1, toygQ⟩ images toyC.thetaLen toyC.strategy =
      some (⟨toyE3, toyE4⟩, images.map F)) ∧
    F ⟨toyE1.add toyX1 toyR1, toyX2⟩ = ⟨toyI11, toyI12⟩ ∧ F ⟨toyE1.add toyY1 toyS1, toyY2⟩ = ⟨toyI21, toyI22⟩ ∧
    ∃ s t, (s = toyE3.pt toyI21 ∨ s = -toyE3.pt toyI21) ∧ (t = toyE4.pt toyI22 ∨ t = -toyE4.pt toyI22) ∧
      (∀ (a b : ℤ) {R : CPt Toy}, PRep R.P1 (a • (tX1 + toyE1.pt toyR1) + b • (tY1 + toyE1.pt toyS1)) →
        PRep R.P2 (a • tX2 + b • tY2) →
        (addOrderOf (a • toyE4.pt toyI12 + b • t) ≠ 4 →
          PRep (F R).P1 (a • toyE3.pt toyI11 + b • s) ∨ PRep (F R).P1 (-(a • toyE3.pt toyI11 + b • s))) ∧
        (addOrderOf (a • toyE3.pt toyI11 + b • s) ≠ 4 →
          PRep (F R).P2 (a • toyE4.pt toyI12 + b • t) ∨ PRep (F R).P2 (-(a • toyE4.pt toyI12 + b • t)))) ∧
      ∀ a b : ℤ, (a • toyE3.pt toyI11 + b • s = 0 ∧ a • toyE4.pt toyI12 + b • t = 0) ↔
        ∃ i j : ℤ, a • (tX1 + toyE1.pt toyR1) + b • (tY1 + toyE1.pt toyS1) =
            i • (4 • toyE1.pt toyR1) + j • (4 • toyE1.pt toyS1) ∧
          a • tX2 + b • tY2 = i • (4 • toyE2.pt toygP) + j • (4 • toyE2.pt toygQ) := by
  obtain ⟨o1, o2, o3, o4, k1, k2, i1, i2, i3, i4⟩ := toy_ker_on
  have r1 := prep_pt toyE1_good o1
  have r2 := prep_pt toyE1_good o2
  have r3 := prep_pt toyE2_good o3
  have r4 := prep_pt toyE2_good o4
  have b1 := isBasis_of_pow_check toyE1_good r1 r2 (r := 2) (e := 24) (by norm_num) k1
  have b2 := isBasis_of_pow_check toyE2_good r3 r4 (r := 2) (e := 24) (by norm_num) k2
  obtain ⟨E3, E4, F, g3, g4, hF, hb, -, -⟩ := C68_product_hom (E := ⟨toyE1, toyE2⟩) (n := 23) toyE1_good toyE2_good r1 r3 r2 r4
    b1 b2 (by norm_num) toy_glue_eq toyChain21
  have hp := toy_product
  rw [show toyC.thetaLen = 23 from rfl] at hp
  rw [hF _ _ toy_strategy] at hp
  simp only [Option.some.injEq, Prod.mk.injEq, EProd.mk.injEq, List.map_cons, List.map_nil, List.cons.injEq, and_true] at hp
  obtain ⟨⟨rfl, rfl⟩, e1, e2⟩ := hp
  have nz : ∀ {E : Crv Toy} {P : Pt Toy}, E.Good → E.onCurve P = true → P.Z ≠ 0 → E.pt P ≠ 0 := by
    intro E P hE h hz h0
    have := prep_pt hE h
    rw [h0] at this
    exact hz this
  refine ⟨F, fun images => hF _ _ toy_strategy, e1, e2, ?_⟩
  refine hb (X := ⟨toyE1.add toyX1 toyR1, toyX2⟩) (Y := ⟨toyE1.add toyY1 toyS1, toyY2⟩) (prep_add toyE1_good tX1_rep r1) tX2_rep
    (prep_add toyE1_good tY1_rep r2) tY2_rep (fun a b => ?_) (nz g3 i1 (by decide +kernel)) (nz g3 i2 (by decide +kernel))
    (nz g4 i3 (by decide +kernel)) (nz g4 i4 (by decide +kernel)) (by rw [e1]; exact prep_pt g3 i1) (by rw [e2]; exact prep_pt g3 i2)
    (by rw [e1]; exact prep_pt g4 i3) (by rw [e2]; exact prep_pt g4 i4)
  refine C68_not_exceptional (by norm_num) b1 b2 (.inl ⟨169, by decide, .inr ?_⟩)
  have := (toy_by (169 * a) (169 * b)).mpr ⟨⟨a, rfl⟩, ⟨b, rfl⟩⟩
  rw [nsmul_add, ← natCast_zsmul, ← natCast_zsmul, ← mul_zsmul, ← mul_zsmul]
  exact_mod_cast this

end Festa
