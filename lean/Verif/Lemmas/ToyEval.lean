import Verif.Spec.ToyScheme
import Verif.Lemmas.Checks
/-! What the model computes on the data of `Verif/Spec/ToyScheme.lean`, by evaluation. -/
namespace Festa

theorem toy_tb0 : torsionBasis true 20 toyE0 toyC.f1 634 = some (toyPd1', toyQd1') := by decide +kernel
theorem toy_tbA' : torsionBasis true 20 toyEA' toyC.f2 25 = some (toyP', toyQ') := by decide +kernel
theorem toy_tbA : torsionBasis true 20 toyEA toyC.f2 25 = some (toyPA, toyQA) := by decide +kernel
theorem toy_tbA634 : torsionBasis true 20 toyEA toyC.f2 634 = some (toyPA', toyQA') := by decide +kernel
theorem toy_tb1 : torsionBasis true 20 toyE1 toyC.f1 25 = some (toyX1, toyY1) := by decide +kernel
theorem toy_tb2 : torsionBasis true 20 toyE2 toyC.f2 25 = some (toyX2, toyY2) := by decide +kernel

theorem toy_keygen : toyS.keygen true 20 toyr11 toyr22 toyDraws1 toyDraws2 = some (toyPk, toySk) := by decide +kernel
theorem toy_eval : toyS.trapdoorEval true 20 toyPk toyM = some toyOut := by decide +kernel

/-- The two random isogenies of the key. -/
theorem toy_rand1 : (randomIsogeny true toyC.fA1 toyDraws1 toyE0).map Prod.snd = some toyEA' := by decide +kernel
theorem toy_rand2 : (randomIsogeny true toyC.fA2 toyDraws2 toyEA').any (fun L => decide (L.2 = toyEA) &&
    chainVals toyEA' toyEA [(toyP', toyPhiP), (toyQ', toyPhiQ), (toySkP2, toyF1), (toySkQ2, toyF2),
      (toyEA'.add toySkP2 toySkQ2, toyF3)] L.1) = true := by decide +kernel

/-- The two isogenies of the value. -/
theorem toy_scalar1 : (isogenyFromScalar true 20 toyE0 toyC.f1 toyM.s1 (some (toyPd1', toyQd1'))).any
    (fun L => chainVals toyE0 toyE1 [(toyQd1', toyW1)] L.1) = true := by decide +kernel
theorem toy_scalar2 : (isogenyFromScalar true 20 toyEA toyC.f2 toyM.s2 (some (toyPA', toyQA'))).any
    (fun L => chainVals toyEA toyE2 [(toyQA, toyW2)] L.1) = true := by decide +kernel

/-- Isogenies back. -/
theorem toy_back1 : (factoredIsogeny true toyE1 toyW1 toyC.f1).any (chainVals toyE1 toyE0 [(toyR1, toyZ1),
    (toyS1, toyZ2), (toyE1.add toyR1 toyS1, toyZ3), (toyE1.add toyX1 toyR1, toyU1), (toyE1.add toyY1 toyR1, toyU2)]) =
    true := by decide +kernel
theorem toy_back2 : (factoredIsogeny true toyE2 toyW2 toyC.f2).any (chainVals toyE2 toyEA [(toyX2, toyJ1),
    (toyY2, toyJ2), (toyE2.add toyX2 toyY2, toyJ3)]) = true := by decide +kernel
theorem toy_back3 : (factoredIsogeny true toyEA toyW3 toyC.fA2).any (chainVals toyEA toyEA' [(toyF1, toyG1),
    (toyF2, toyG2), (toyF3, toyG3), (toyJ1, toyH1), (toyJ2, toyH2), (toyJ3, toyH3)]) = true := by decide +kernel

/-- The points to be glued. -/
theorem toy_glue : xgcdBig toySk.a11 toyS.l = some 19892335 ∧ xgcdBig toySk.a22 toyS.l = some 417873 ∧
    toyE2.mulBig toyR2 19892335 = some toyr ∧ toyE2.mulBig toyS2 417873 = some toys ∧
    toyE2.mulBig toyr toyS.g2 = some toygP ∧ toyE2.mulBig toys toyS.g2 = some toygQ := by decide +kernel

/-- The chain of (2,2)-isogenies. -/
theorem toy_product_any : (productIsogeny ⟨toyE1, toyE2⟩ ⟨toyR1, toygP⟩ ⟨toyS1, toygQ⟩
    [⟨toyE1.add toyX1 toyR1, toyX2⟩, ⟨toyE1.add toyY1 toyS1, toyY2⟩] toyC.thetaLen toyC.strategy).any (fun r =>
      decide (r.1.E1 = toyE3) && decide (r.1.E2 = toyE4) && match r.2 with
        | [i, j] => decide (i.P1 = toyI11) && decide (i.P2 = toyI12) && decide (j.P1 = toyI21) && decide (j.P2 = toyI22)
        | _ => false) = true := by decide +kernel

theorem toy_product : productIsogeny ⟨toyE1, toyE2⟩ ⟨toyR1, toygP⟩ ⟨toyS1, toygQ⟩
    [⟨toyE1.add toyX1 toyR1, toyX2⟩, ⟨toyE1.add toyY1 toyS1, toyY2⟩] toyC.thetaLen toyC.strategy =
      some (⟨toyE3, toyE4⟩, [⟨toyI11, toyI12⟩, ⟨toyI21, toyI22⟩]) := by
  have h := toy_product_any
  generalize productIsogeny (K := Toy) _ _ _ _ _ _ = o at h ⊢
  rcases o with _ | ⟨⟨a, b⟩, l⟩
  · cases h
  · simp only [Option.any_some, Bool.and_eq_true, decide_eq_true_eq] at h
    obtain ⟨⟨rfl, rfl⟩, h⟩ := h
    match l, h with
    | [⟨i1, i2⟩, ⟨j1, j2⟩], h =>
      simp only [Bool.and_eq_true, decide_eq_true_eq] at h
      obtain ⟨⟨⟨rfl, rfl⟩, rfl⟩, rfl⟩ := h
      rfl

theorem toy_choose : chooseFactor true toyEA' ⟨toyE3, toyE4⟩ ⟨toyI11, toyI12⟩ ⟨toyI21, toyI22⟩ = some (toyl1, toyl2) := by
  decide +kernel

/-- Points on the curves. -/
theorem toy_on : toyE0.onCurve toyPb = true ∧ toyE0.onCurve toyQb = true ∧ toyE0.onCurve toyPd1 = true ∧
    toyE0.onCurve toyQd1 = true ∧ toyEA'.onCurve toyP' = true ∧ toyEA'.onCurve toyQ' = true ∧
    toyEA.onCurve toyPA = true ∧ toyEA.onCurve toyQA = true ∧ toyE1.onCurve toyX1 = true ∧
    toyE1.onCurve toyY1 = true ∧ toyE2.onCurve toyX2 = true ∧ toyE2.onCurve toyY2 = true ∧
    toyEA.onCurve toyW3 = true ∧ toyEA'.onCurve toyl1 = true ∧ toyEA'.onCurve toyl2 = true ∧
    toyE1.onCurve toyW1 = true ∧ toyE2.onCurve toyW2 = true ∧ toyEA'.onCurve toyH1 = true ∧
    toyEA'.onCurve toyH2 = true := by decide +kernel

/-- Bases. -/
theorem toy_bases : toyE0.isBasis toyPb toyQb 2 24 = true ∧ toyE0.isBasis toyPd1 toyQd1 7 2 = true ∧
    toyEA'.isBasis toyP' toyQ' 13 1 = true ∧ toyEA.isBasis toyPA toyQA 13 1 = true ∧
    toyE1.isBasis toyX1 toyY1 7 2 = true ∧ toyE2.isBasis toyX2 toyY2 13 1 = true := by decide +kernel

/-- The basis points found with different exponents agree. -/
theorem toy_same : toyPd1'.equals toyPd1 = true ∧ toyQd1'.equals toyQd1 = true ∧ toyPA'.equals toyPA = true ∧
    toyQA'.equals toyQA = true := by decide +kernel

/-- Points off the axes. -/
theorem toy_axes : toyEA.offAxis toyPA toyPhiP 13 13 = true ∧ toyEA.offAxis toyPA toyPhiQ 13 13 = true ∧
    toyEA.offAxis toyQA toyPhiP 13 13 = true ∧ toyEA.offAxis toyQA toyPhiQ 13 13 = true := by decide +kernel

/-- Orders. -/
theorem toy_orders : toyE1.hasPow toyW1 7 2 = true ∧ toyE2.hasPow toyW2 13 1 = true ∧
    toyEA.hasPow toyW3 43 1 = true := by decide +kernel

end Festa
