import Verif.Lemmas.AxisCheck
import Verif.Lemmas.ToyEval
/-!
A small version of the scheme as a concrete case of the theorems of `Verif/Props/Scheme.lean`: key generation, evaluation of
the trapdoor function and its inversion, over the field of `Verif/Spec/ToyField.lean`.
-/
namespace Festa

theorem toy_sound : toyS.Sound true := by
  refine ⟨?_, ?_, ⟨⟨?_, ?_⟩, ?_⟩, ⟨⟨?_, ?_⟩, ?_⟩, ?_, ?_, ?_, ?_, ?_, ?_, ?_, ?_, ?_, ?_, ?_, ?_, ?_, ?_⟩ <;> decide +kernel

theorem toy_norm : toyS.Norm := by constructor <;> decide +kernel

theorem toy_good : toyE0.Good ∧ toyEA'.Good ∧ toyEA.Good ∧ toyE1.Good ∧ toyE2.Good := by
  refine ⟨⟨?_, ?_, ?_⟩, ⟨?_, ?_, ?_⟩, ⟨?_, ?_, ?_⟩, ⟨?_, ?_, ?_⟩, ⟨?_, ?_, ?_⟩⟩ <;> decide +kernel

theorem toyE0_good : toyE0.Good := toy_good.1
theorem toyEA'_good : toyEA'.Good := toy_good.2.1
theorem toyEA_good : toyEA.Good := toy_good.2.2.1
theorem toyE1_good : toyE1.Good := toy_good.2.2.2.1
theorem toyE2_good : toyE2.Good := toy_good.2.2.2.2

/-- The points of `E0`: the bases of orders `l` and `d1`. -/
noncomputable abbrev tPb := toyE0.pt toyPb
noncomputable abbrev tQb := toyE0.pt toyQb
noncomputable abbrev tPd1 := toyE0.pt toyPd1
noncomputable abbrev tQd1 := toyE0.pt toyQd1
/-- The basis of order `d2` of `EA`. -/
noncomputable abbrev tPA := toyEA.pt toyPA
noncomputable abbrev tQA := toyEA.pt toyQA

theorem tPb_rep : PRep toyPb tPb := prep_pt toyE0_good toy_on.1
theorem tQb_rep : PRep toyQb tQb := prep_pt toyE0_good toy_on.2.1
theorem tPd1_rep : PRep toyPd1 tPd1 := prep_pt toyE0_good toy_on.2.2.1
theorem tQd1_rep : PRep toyQd1 tQd1 := prep_pt toyE0_good toy_on.2.2.2.1
theorem tPA_rep : PRep toyPA tPA := prep_pt toyEA_good toy_on.2.2.2.2.2.2.1
theorem tQA_rep : PRep toyQA tQA := prep_pt toyEA_good toy_on.2.2.2.2.2.2.2.1

theorem toy_b : IsBasis toyS.l tPb tQb :=
  isBasis_of_pow_check toyE0_good tPb_rep tQb_rep (r := 2) (e := 24) (by norm_num) toy_bases.1
theorem toy_b1 : IsBasis toyS.d1 tPd1 tQd1 :=
  isBasis_of_pow_check toyE0_good tPd1_rep tQd1_rep (r := 7) (e := 2) (by norm_num) toy_bases.2.1
theorem toy_bA : IsBasis toyS.d2 tPA tQA :=
  isBasis_of_pow_check toyEA_good tPA_rep tQA_rep (r := 13) (e := 1) (by norm_num) toy_bases.2.2.2.1

/-- The key pair, a case of `C54_keygen_partial`. -/
theorem toy_key : ∃ (φA1 : MPoint toyE0.A →+ MPoint toyEA'.A) (φA2 : MPoint toyEA'.A →+ MPoint toyEA.A)
    (L2 : List (KIso Toy)), chainVals toyEA' toyEA [(toyP', toyPhiP), (toyQ', toyPhiQ), (toySkP2, toyF1),
      (toySkQ2, toyF2), (toyEA'.add toySkP2 toySkQ2, toyF3)] L2 = true ∧
    (IsChain toyEA' L2 toyEA φA2 ∨ IsChain toyEA' L2 toyEA (-φA2)) ∧
    KeyRel toyS toyPk toySk φA1 φA2 tPb tQb tPd1 tQd1 tPA tQA ∧
    IsBasis toyS.l (toySk.a11 • φA2 (φA1 tPb)) (toySk.a22 • φA2 (φA1 tQb)) := by
  obtain ⟨L1, h1⟩ : ∃ L, randomIsogeny true toyC.fA1 toyDraws1 toyE0 = some (L, toyEA') := by
    obtain ⟨⟨L, E⟩, e, rfl⟩ := Option.map_eq_some_iff.mp toy_rand1
    exact ⟨L, e⟩
  obtain ⟨L2, h2, hv⟩ : ∃ L, randomIsogeny true toyC.fA2 toyDraws2 toyEA' = some (L, toyEA) ∧
      chainVals toyEA' toyEA [(toyP', toyPhiP), (toyQ', toyPhiQ), (toySkP2, toyF1), (toySkQ2, toyF2),
        (toyEA'.add toySkP2 toySkQ2, toyF3)] L = true := by
    obtain ⟨⟨L, E⟩, e, h⟩ := of_any toy_rand2
    rw [Bool.and_eq_true, decide_eq_true_eq] at h
    obtain ⟨rfl, h⟩ := h
    exact ⟨L, e, h⟩
  have hP' := prep_pt toyEA'_good toy_on.2.2.2.2.1
  have hQ' := prep_pt toyEA'_good toy_on.2.2.2.2.2.1
  obtain ⟨φA1, φ2, c1, i1, c2, i2, h⟩ := C54_keygen_partial 20 toyS toy_sound toy_norm toyE0_good toyr11 toyr22 toyDraws1
    toyDraws2 tPb_rep tQb_rep toy_b tPd1_rep tQd1_rep toy_b1
    (by refine ⟨⟨?_, ?_⟩, ?_⟩ <;> decide +kernel) (by refine ⟨⟨?_, ?_⟩, ?_⟩ <;> decide +kernel)
    (by decide +kernel) (by decide +kernel) (by decide +kernel) (by decide +kernel) (by decide +kernel) (by decide +kernel)
    h1 h2 toy_tbA' hP' hQ' (isBasis_of_pow_check toyEA'_good hP' hQ' (r := 13) (e := 1) (by norm_num) toy_bases.2.2.1)
    toy_tbA tPA_rep tQA_rep toy_bA
  have vP : PM toyPhiP (φ2 (toyEA'.pt toyP')) := PM.chain (Or.inl c2) (Or.inl hP') (vals hv (by simp))
  have vQ : PM toyPhiQ (φ2 (toyEA'.pt toyQ')) := PM.chain (Or.inl c2) (Or.inl hQ') (vals hv (by simp))
  have off : ∀ {x y : Pt Toy} {X Y : MPoint toyEA.A}, PRep x X → PM y Y → toyEA.offAxis x y 13 13 = true →
      X ∉ AddSubgroup.zmultiples Y := by
    intro x y X Y hx hy hc
    rcases hy with hy | hy
    · exact off_axis toyEA_good hx hy (by norm_num) hc
    · have := off_axis toyEA_good hx hy (by norm_num) hc
      rwa [AddSubgroup.zmultiples_neg] at this
  obtain ⟨R, T, x1, y1, x2, y2, φA2, hs, hk, hr, hbl⟩ := h (by
    intro X hX
    simp only [List.mem_cons, List.not_mem_nil, or_false] at hX
    rcases hX with rfl | rfl
    · exact ⟨.of_not_mem (off tPA_rep vP toy_axes.1), .of_not_mem (off tPA_rep vQ toy_axes.2.1)⟩
    · exact ⟨.of_not_mem (off tQA_rep vP toy_axes.2.2.1), .of_not_mem (off tQA_rep vQ toy_axes.2.2.2)⟩)
  have e := Option.some.inj (hk.symm.trans toy_keygen)
  obtain rfl : R = toyRA := congrArg (fun z => z.1.RA) e
  obtain rfl : T = toySA := congrArg (fun z => z.1.SA) e
  obtain rfl : x1 = toySkP1 := congrArg (fun z => z.2.P1) e
  obtain rfl : y1 = toySkQ1 := congrArg (fun z => z.2.Q1) e
  obtain rfl : x2 = toySkP2 := congrArg (fun z => z.2.P2) e
  obtain rfl : y2 = toySkQ2 := congrArg (fun z => z.2.Q2) e
  refine ⟨φA1, φA2, L2, hv, ?_, hr, hbl⟩
  rcases hs with rfl | rfl
  · exact Or.inl c2
  · exact Or.inr (by rw [neg_neg]; exact c2)

/-- The value of the trapdoor function, a case of `C54_eval`. -/
theorem toy_value {φA1 : MPoint toyE0.A →+ MPoint toyEA'.A} {φA2 : MPoint toyEA'.A →+ MPoint toyEA.A}
    (hk : KeyRel toyS toyPk toySk φA1 φA2 tPb tQb tPd1 tQd1 tPA tQA)
    (hb : IsBasis toyS.l (toySk.a11 • φA2 (φA1 tPb)) (toySk.a22 • φA2 (φA1 tQb))) :
    ∃ (φ1 : MPoint toyE0.A →+ MPoint toyE1.A) (φ2 : MPoint toyEA.A →+ MPoint toyE2.A),
      OutRel toyS toyPk toyM toyOut φ1 φ2 tPb tQb tPd1 tQd1 (toySk.a11 • φA2 (φA1 tPb)) (toySk.a22 • φA2 (φA1 tQb))
        tPA tQA ∧ PM toyW1 (φ1 tQd1) ∧ PM toyW2 (φ2 tQA) := by
  have p1 : PRep toyPd1' tPd1 := by
    have h := prep_pt toyE0_good (p := toyPd1') (by decide +kernel)
    rwa [(prep_equals h tPd1_rep).mp toy_same.1] at h
  have q1 : PRep toyQd1' tQd1 := by
    have h := prep_pt toyE0_good (p := toyQd1') (by decide +kernel)
    rwa [(prep_equals h tQd1_rep).mp toy_same.2.1] at h
  have p2 : PRep toyPA' tPA := by
    have h := prep_pt toyEA_good (p := toyPA') (by decide +kernel)
    rwa [(prep_equals h tPA_rep).mp toy_same.2.2.1] at h
  have q2 : PRep toyQA' tQA := by
    have h := prep_pt toyEA_good (p := toyQA') (by decide +kernel)
    rwa [(prep_equals h tQA_rep).mp toy_same.2.2.2] at h
  obtain ⟨c, φ1, φ2, hc, ho, ⟨L1, e1, c1⟩, ⟨L2, e2, c2⟩⟩ := C54_eval true 20 toyS toy_sound toy_norm toyE0_good toyPk
    toyEA_good tPb_rep tQb_rep toy_b hk.ra hk.sa hb toy_tb0 p1 q1 toy_b1 toy_tbA634 p2 q2 toy_bA toyM
  obtain rfl : toyOut = c := Option.some.inj (toy_eval.symm.trans hc)
  obtain ⟨⟨L1', E⟩, e1', v1⟩ := of_any toy_scalar1
  obtain rfl : L1 = L1' := congrArg (fun z => z.1) (Option.some.inj (e1.symm.trans ((fromScalar_none toy_tb0 _).trans e1')))
  obtain ⟨⟨L2', E'⟩, e2', v2⟩ := of_any toy_scalar2
  obtain rfl : L2 = L2' := congrArg (fun z => z.1) (Option.some.inj (e2.symm.trans ((fromScalar_none toy_tbA634 _).trans e2')))
  exact ⟨φ1, φ2, ho, PM.chain c1 (Or.inl q1) (vals v1 (by simp)), PM.chain c2 (Or.inl tQA_rep) (vals v2 (by simp))⟩

noncomputable abbrev tX1 := toyE1.pt toyX1
noncomputable abbrev tY1 := toyE1.pt toyY1
noncomputable abbrev tX2 := toyE2.pt toyX2
noncomputable abbrev tY2 := toyE2.pt toyY2

theorem tX1_rep : PRep toyX1 tX1 := prep_pt toyE1_good toy_on.2.2.2.2.2.2.2.2.1
theorem tY1_rep : PRep toyY1 tY1 := prep_pt toyE1_good toy_on.2.2.2.2.2.2.2.2.2.1
theorem tX2_rep : PRep toyX2 tX2 := prep_pt toyE2_good toy_on.2.2.2.2.2.2.2.2.2.2.1
theorem tY2_rep : PRep toyY2 tY2 := prep_pt toyE2_good toy_on.2.2.2.2.2.2.2.2.2.2.2.1

theorem toy_bx : IsBasis toyS.d1 tX1 tY1 :=
  isBasis_of_pow_check toyE1_good tX1_rep tY1_rep (r := 7) (e := 2) (by norm_num) toy_bases.2.2.2.2.1
theorem toy_by : IsBasis toyS.d2 tX2 tY2 :=
  isBasis_of_pow_check toyE2_good tX2_rep tY2_rep (r := 13) (e := 1) (by norm_num) toy_bases.2.2.2.2.2

theorem nsmul_congr {H : Type*} [AddCommGroup H] {n : Nat} {X : H} (h : n • X = 0) {a b : Nat} (e : a % n = b % n) :
    a • X = b • X := by rw [← nsmul_mod h a, e, nsmul_mod h b]

theorem chain_neg {K : Type*} [Field K] [DecidableEq K] [RootOps K] {E E' : Crv K} {L : List (KIso K)}
    {χ : MPoint E.A →+ MPoint E'.A} (h : IsChain E L E' χ) : IsChain E L E' (- -χ) := by rwa [neg_neg]

theorem PM.add_inv {A : Toy} {p : Pt Toy} {X : MPoint A} (h : PM p X) : PM p.neg X := by
  rcases h with h | h
  · exact Or.inr (prep_neg h)
  · exact Or.inl (by have := prep_neg h; rwa [neg_neg] at this)

/-- The signs of the values of the chain back from `E1`. -/
theorem toy_signs1 :
    (toyZ1.equals (toyE0.mulD toyPb (343 * 4853857)) || toyZ1.equals (toyE0.mulD toyPb (343 * 4853857)).neg) = true ∧
    (toyZ2.equals (toyE0.mulD toyQb (343 * 8688545)) || toyZ2.equals (toyE0.mulD toyQb (343 * 8688545)).neg) = true ∧
    (toyZ3.equals (toyE0.add (toyE0.mulD toyPb (343 * 4853857)) (toyE0.mulD toyQb (343 * 8688545))) ||
      toyZ3.equals (toyE0.add (toyE0.mulD toyPb (343 * 4853857)) (toyE0.mulD toyQb (343 * 8688545))).neg) = true ∧
    toyE0.signOk toyU1.neg (toyE0.mulD toyPb (343 * 4853857)) 343 = true ∧
    toyE0.signOk toyU2 (toyE0.mulD toyPb (343 * 4853857)) 343 = true ∧
    toyE0.isMul (toyE0.sub toyU1.neg (toyE0.mulD toyPb (343 * 4853857))) (toyE0.add toyPd1 (toyE0.mulD toyQd1 287)) 139 =
      true ∧
    toyE0.isMul (toyE0.sub toyU2 (toyE0.mulD toyPb (343 * 4853857))) (toyE0.add toyPd1 (toyE0.mulD toyQd1 287)) 336 =
      true := by decide +kernel

/-- The dual of the first isogeny of the value. -/
theorem toy_dual1 {φ1 : MPoint toyE0.A →+ MPoint toyE1.A} (hi : IsIsog φ1 toyS.d1)
    (hker : ∀ X, φ1 X = 0 ↔ X ∈ AddSubgroup.zmultiples (tPd1 + toyM.s1 • tQd1))
    (hr : PRep toyR1 (toyM.b11 • φ1 tPb)) (hs : PRep toyS1 (toyM.b22 • φ1 tQb)) (hw : PM toyW1 (φ1 tQd1)) :
    ∃ ψ1 : MPoint toyE1.A →+ MPoint toyE0.A, DualOn (toyS.l * toyS.d1) toyS.d1 φ1 ψ1 ∧
      ψ1 tX1 = 139 • (tPd1 + toyM.s1 • tQd1) ∧ ψ1 tY1 = 336 • (tPd1 + toyM.s1 • tQd1) := by
  obtain ⟨W, hW, eW⟩ : ∃ W : MPoint toyE1.A, PRep toyW1 W ∧ (W = φ1 tQd1 ∨ W = -φ1 tQd1) := by
    rcases hw with h | h
    · exact ⟨_, h, Or.inl rfl⟩
    · exact ⟨_, h, Or.inr rfl⟩
  have zW : AddSubgroup.zmultiples W = AddSubgroup.zmultiples (φ1 tQd1) := by
    rcases eW with rfl | rfl
    · rfl
    · rw [AddSubgroup.zmultiples_neg]
  obtain ⟨L, χ, hc, hv, hk⟩ := chain_back true toyE1_good hW (fs := toyC.f1)
    (by refine ⟨?_, ?_, ?_, ?_⟩ <;> decide +kernel)
    ((order_pow toyE1_good hW (r := 7) (e := 2) (by norm_num) toy_orders.1).trans (by decide +kernel)) (by simp) toy_back1
  rw [zW] at hk
  have tP := prep_mulD toyE0_good tPb_rep (343 * 4853857)
  have tQ := prep_mulD toyE0_good tQb_rep (343 * 8688545)
  have hA := (PM.chain (Or.inl hc) (Or.inl hr) (vals hv (by simp))).eq tP toy_signs1.1
  have hB := (PM.chain (Or.inl hc) (Or.inl hs) (vals hv (by simp))).eq tQ toy_signs1.2.1
  have hAB := (PM.chain (Or.inl hc) (Or.inl (prep_add toyE1_good hr hs)) (vals hv (by simp))).eq
    (prep_add toyE0_good tP tQ) toy_signs1.2.2.1
  obtain ⟨ψ1, hψ, hA, hB, hk⟩ : ∃ ψ1 : MPoint toyE1.A →+ MPoint toyE0.A,
      (IsChain toyE1 L toyE0 ψ1 ∨ IsChain toyE1 L toyE0 (-ψ1)) ∧
      ψ1 (toyM.b11 • φ1 tPb) = (343 * 4853857) • tPb ∧ ψ1 (toyM.b22 • φ1 tQb) = (343 * 8688545) • tQb ∧
      ∀ Q, ψ1 Q = 0 ↔ Q ∈ AddSubgroup.zmultiples (φ1 tQd1) := by
    rcases sign_pair χ hA hB hAB
      (by rw [← mul_nsmul']; exact ne_of_isInf (prep_mulD toyE0_good tPb_rep _) (by decide +kernel))
      (by rw [← mul_nsmul']; exact ne_of_isInf (prep_mulD toyE0_good tQb_rep _) (by decide +kernel)) with ⟨h1, h2⟩ | ⟨h1, h2⟩
    · exact ⟨χ, Or.inl hc, h1, h2, hk⟩
    · refine ⟨-χ, Or.inr (chain_neg hc), ?_, ?_, ?_⟩
      · rw [AddMonoidHom.neg_apply, h1, neg_neg]
      · rw [AddMonoidHom.neg_apply, h2, neg_neg]
      · intro Q; rw [AddMonoidHom.neg_apply, neg_eq_zero]; exact hk Q
  have lP := toy_b.nsmul_left
  have lQ := toy_b.nsmul_right
  -- the composition on the points of order `l`
  have uP : ψ1 (φ1 tPb) = 343 • tPb := by
    have h := congrArg (fun X => toyM.b22 • X) hA
    simp only [map_nsmul, ← mul_nsmul'] at h
    have l0 : toyS.l • ψ1 (φ1 tPb) = 0 := by rw [← map_nsmul, ← map_nsmul, lP, map_zero, map_zero]
    rw [nsmul_congr l0 (b := 1) (by decide +kernel), one_nsmul] at h
    rw [h]
    exact nsmul_congr lP (by decide +kernel)
  have uQ : ψ1 (φ1 tQb) = 343 • tQb := by
    have h := congrArg (fun X => toyM.b11 • X) hB
    simp only [map_nsmul, ← mul_nsmul'] at h
    have l0 : toyS.l • ψ1 (φ1 tQb) = 0 := by rw [← map_nsmul, ← map_nsmul, lQ, map_zero, map_zero]
    rw [nsmul_congr l0 (b := 1) (by decide +kernel), one_nsmul] at h
    rw [h]
    exact nsmul_congr lQ (by decide +kernel)
  have vQ : ψ1 (φ1 tQd1) = 0 := (hk _).mpr (AddSubgroup.mem_zmultiples _)
  have vK : φ1 (tPd1 + toyM.s1 • tQd1) = 0 := (hker _).mpr (AddSubgroup.mem_zmultiples _)
  have vP : ψ1 (φ1 tPd1) = 0 := by
    have := congrArg ψ1 vK
    rwa [map_add, map_add, map_nsmul, map_nsmul, vQ, nsmul_zero, add_zero, map_zero] at this
  -- the values at the basis of order `d1`
  have hK := prep_add toyE0_good tPd1_rep (prep_mulD toyE0_good tQd1_rep 287)
  have hT : PRep (toyE0.mulD toyPb (343 * 4853857)) (ψ1 (toyM.b11 • φ1 tPb)) := by rw [hA]; exact tP
  have x1 : ψ1 tX1 = 139 • (tPd1 + toyM.s1 • tQd1) := by
    have h := PM.chain hψ (Or.inl (prep_add toyE1_good tX1_rep hr)) (vals hv (z := toyU1) (by simp))
    exact (isMul_iff toyE0_good (eval_signed' toyE0_good hT h.add_inv toy_bx.nsmul_left toy_signs1.2.2.2.1) hK 139).mp
      toy_signs1.2.2.2.2.2.1
  have y1 : ψ1 tY1 = 336 • (tPd1 + toyM.s1 • tQd1) := by
    have h := PM.chain hψ (Or.inl (prep_add toyE1_good tY1_rep hr)) (vals hv (z := toyU2) (by simp))
    exact (isMul_iff toyE0_good (eval_signed' toyE0_good hT h toy_bx.nsmul_right toy_signs1.2.2.2.2.1) hK 336).mp
      toy_signs1.2.2.2.2.2.2
  have zX : φ1 (ψ1 tX1) = 0 := by rw [x1, map_nsmul, vK, nsmul_zero]
  have zY : φ1 (ψ1 tY1) = 0 := by rw [y1, map_nsmul, vK, nsmul_zero]
  have hl : IsBasis toyS.l (φ1 tPb) (φ1 tQb) :=
    toy_b.map (hi.inj (by decide +kernel) (by decide +kernel) (by decide +kernel))
  refine ⟨ψ1, ⟨?_, ?_, ?_⟩, x1, y1⟩
  · intro X hX
    refine hom_ext_basis toyE0_good (by decide +kernel) (IsBasis.sum (by decide +kernel) toy_b toy_b1) hX
      (f := ψ1.comp φ1) (g := toyS.d1 • AddMonoidHom.id _) ?_ ?_
    · simp only [AddMonoidHom.comp_apply, map_add, uP, vP, AddMonoidHom.nsmul_apply, AddMonoidHom.id_apply]
      rw [toy_b1.nsmul_left]; rfl
    · simp only [AddMonoidHom.comp_apply, map_add, uQ, vQ, AddMonoidHom.nsmul_apply, AddMonoidHom.id_apply]
      rw [toy_b1.nsmul_right]; rfl
  · intro Y hY
    refine hom_ext_basis toyE1_good (by decide +kernel) (IsBasis.sum (by decide +kernel) hl toy_bx) hY
      (f := φ1.comp ψ1) (g := toyS.d1 • AddMonoidHom.id _) ?_ ?_
    · rw [AddMonoidHom.comp_apply, AddMonoidHom.nsmul_apply, AddMonoidHom.id_apply, map_add, map_add, uP, zX, nsmul_add,
        toy_bx.nsmul_left, map_nsmul]; rfl
    · rw [AddMonoidHom.comp_apply, AddMonoidHom.nsmul_apply, AddMonoidHom.id_apply, map_add, map_add, uQ, zY, nsmul_add,
        toy_bx.nsmul_right, map_nsmul]; rfl
  · intro Y _ h0
    obtain ⟨k, rfl⟩ := AddSubgroup.mem_zmultiples_iff.mp ((hk _).mp h0)
    exact ⟨k • tQd1, by rw [smul_comm, toy_b1.nsmul_right, smul_zero], map_zsmul _ _ _⟩

/-- The signs of the values of the chains back from `EA` and `E2`. -/
theorem toy_signs2 :
    (toyG1.equals (toyEA'.mulD toySkP2 1849) || toyG1.equals (toyEA'.mulD toySkP2 1849).neg) = true ∧
    (toyG2.equals (toyEA'.mulD toySkQ2 1849) || toyG2.equals (toyEA'.mulD toySkQ2 1849).neg) = true ∧
    (toyG3.equals (toyEA'.add (toyEA'.mulD toySkP2 1849) (toyEA'.mulD toySkQ2 1849)) ||
      toyG3.equals (toyEA'.add (toyEA'.mulD toySkP2 1849) (toyEA'.mulD toySkQ2 1849)).neg) = true ∧
    toyEA'.isBasis toySkP2 toySkQ2 13 1 = true ∧
    (toyEA'.double (toyEA'.mulD toySkP2 1849)).isInf = false ∧ (toyEA'.double (toyEA'.mulD toySkQ2 1849)).isInf = false ∧
    toyH1.equals toyH1 = true ∧ toyH2.equals toyH2 = true ∧
    (toyH3.equals (toyEA'.add toyH1 toyH2) || toyH3.equals (toyEA'.add toyH1 toyH2).neg) = true ∧
    (toyEA'.double toyH1).isInf = false ∧ (toyEA'.double toyH2).isInf = false ∧
    toyEA.isPmMul toyJ1 (toyEA.add toyPA (toyEA.mulD toyQA 149)) 98 = true ∧
    toyEA.isPmMul toyJ2 (toyEA.add toyPA (toyEA.mulD toyQA 149)) 167 = true := by decide +kernel

/-- The dual of the second isogeny of the key, as far as it matters. -/
theorem toy_dualA2 {φA2 : MPoint toyEA'.A →+ MPoint toyEA.A} {L2 : List (KIso Toy)} {P2 Q2 : MPoint toyEA'.A}
    (hc2 : IsChain toyEA' L2 toyEA φA2 ∨ IsChain toyEA' L2 toyEA (-φA2))
    (hv2 : chainVals toyEA' toyEA [(toyP', toyPhiP), (toyQ', toyPhiQ), (toySkP2, toyF1),
      (toySkQ2, toyF2), (toyEA'.add toySkP2 toySkQ2, toyF3)] L2 = true)
    (hP : PRep toySkP2 P2) (hQ : PRep toySkQ2 Q2) :
    ∃ (ψ : MPoint toyEA.A →+ MPoint toyEA'.A), (∀ X, toyS.d2 • X = 0 → ψ (φA2 X) = toyS.c.dA2 • X) ∧
      ∀ J X Z, (J, Z) ∈ [(toyJ1, toyH1), (toyJ2, toyH2), (toyJ3, toyH3)] → PM J X → PM Z (ψ X) := by
  have hW := prep_pt toyEA_good toy_on.2.2.2.2.2.2.2.2.2.2.2.2.1
  obtain ⟨L, χ, hc, hv, hk⟩ := chain_back true toyEA_good hW (fs := toyC.fA2)
    (by refine ⟨?_, ?_, ?_, ?_⟩ <;> decide +kernel)
    ((order_pow toyEA_good hW (r := 43) (e := 1) (by norm_num) toy_orders.2.2).trans (by decide +kernel)) (by simp) toy_back3
  have tP := prep_mulD toyEA'_good hP 1849
  have tQ := prep_mulD toyEA'_good hQ 1849
  have hA := (PM.chain (Or.inl hc) (PM.chain hc2 (Or.inl hP) (vals hv2 (z := toyF1) (by simp))) (vals hv (z := toyG1)
    (by simp))).eq tP toy_signs2.1
  have hB := (PM.chain (Or.inl hc) (PM.chain hc2 (Or.inl hQ) (vals hv2 (z := toyF2) (by simp))) (vals hv (z := toyG2)
    (by simp))).eq tQ toy_signs2.2.1
  have hAB := (PM.chain (Or.inl hc) (PM.chain hc2 (Or.inl (prep_add toyEA'_good hP hQ)) (vals hv2 (z := toyF3) (by simp)))
    (vals hv (z := toyG3) (by simp))).eq (prep_add toyEA'_good tP tQ) toy_signs2.2.2.1
  have hb : IsBasis toyS.d2 P2 Q2 :=
    isBasis_of_pow_check toyEA'_good hP hQ (r := 13) (e := 1) (by norm_num) toy_signs2.2.2.2.1
  obtain ⟨ψ, hψ, hA, hB⟩ : ∃ ψ : MPoint toyEA.A →+ MPoint toyEA'.A,
      (IsChain toyEA L toyEA' ψ ∨ IsChain toyEA L toyEA' (-ψ)) ∧ ψ (φA2 P2) = 1849 • P2 ∧ ψ (φA2 Q2) = 1849 • Q2 := by
    rcases sign_pair (χ.comp φA2) hA hB hAB
      (ne_of_isInf (prep_double toyEA'_good tP) toy_signs2.2.2.2.2.1)
      (ne_of_isInf (prep_double toyEA'_good tQ) toy_signs2.2.2.2.2.2.1) with ⟨h1, h2⟩ | ⟨h1, h2⟩
    · exact ⟨χ, Or.inl hc, h1, h2⟩
    · refine ⟨-χ, Or.inr (chain_neg hc), ?_, ?_⟩
      · rw [AddMonoidHom.comp_apply] at h1
        rw [AddMonoidHom.neg_apply, h1, neg_neg]
      · rw [AddMonoidHom.comp_apply] at h2
        rw [AddMonoidHom.neg_apply, h2, neg_neg]
  refine ⟨ψ, ?_, ?_⟩
  · intro X hX
    exact hom_ext_basis toyEA'_good (by decide +kernel) hb hX (f := ψ.comp φA2) (g := toyS.c.dA2 • AddMonoidHom.id _) hA hB
  · intro J X Z hm hJ
    exact PM.chain hψ hJ (vals hv (List.mem_cons_of_mem _ (List.mem_cons_of_mem _ (List.mem_cons_of_mem _ hm))))

noncomputable abbrev tH1 := toyEA'.pt toyH1
noncomputable abbrev tH2 := toyEA'.pt toyH2
theorem tH1_rep : PRep toyH1 tH1 := prep_pt toyEA'_good toy_on.2.2.2.2.2.2.2.2.2.2.2.2.2.2.2.2.2.1
theorem tH2_rep : PRep toyH2 tH2 := prep_pt toyEA'_good toy_on.2.2.2.2.2.2.2.2.2.2.2.2.2.2.2.2.2.2

/-- The dual of the second isogeny of the value. -/
theorem toy_dual2 {φ2 : MPoint toyEA.A →+ MPoint toyE2.A}
    (hker : ∀ X, φ2 X = 0 ↔ X ∈ AddSubgroup.zmultiples (tPA + toyM.s2 • tQA)) (hw : PM toyW2 (φ2 tQA))
    {ψA : MPoint toyEA.A →+ MPoint toyEA'.A}
    (hA : ∀ J X Z, (J, Z) ∈ [(toyJ1, toyH1), (toyJ2, toyH2), (toyJ3, toyH3)] → PM J X → PM Z (ψA X)) :
    ∃ ψ2 : MPoint toyE2.A →+ MPoint toyEA.A, DualOn toyS.d2 toyS.d2 φ2 ψ2 ∧ ψA (ψ2 tX2) = tH1 ∧ ψA (ψ2 tY2) = tH2 := by
  obtain ⟨W, hW, eW⟩ : ∃ W : MPoint toyE2.A, PRep toyW2 W ∧ (W = φ2 tQA ∨ W = -φ2 tQA) := by
    rcases hw with h | h
    · exact ⟨_, h, Or.inl rfl⟩
    · exact ⟨_, h, Or.inr rfl⟩
  have zW : AddSubgroup.zmultiples W = AddSubgroup.zmultiples (φ2 tQA) := by
    rcases eW with rfl | rfl
    · rfl
    · rw [AddSubgroup.zmultiples_neg]
  obtain ⟨L, χ, hc, hv, hk⟩ := chain_back true toyE2_good hW (fs := toyC.f2)
    (by refine ⟨?_, ?_, ?_, ?_⟩ <;> decide +kernel)
    ((order_pow toyE2_good hW (r := 13) (e := 1) (by norm_num) toy_orders.2.1).trans (by decide +kernel)) (by simp) toy_back2
  rw [zW] at hk
  have j1 := PM.chain (Or.inl hc) (Or.inl tX2_rep) (vals hv (z := toyJ1) (by simp))
  have j2 := PM.chain (Or.inl hc) (Or.inl tY2_rep) (vals hv (z := toyJ2) (by simp))
  have j3 := PM.chain (Or.inl hc) (Or.inl (prep_add toyE2_good tX2_rep tY2_rep)) (vals hv (z := toyJ3) (by simp))
  have h1 := (hA _ _ toyH1 (by simp) j1).eq tH1_rep (by rw [toy_signs2.2.2.2.2.2.2.1, Bool.true_or])
  have h2 := (hA _ _ toyH2 (by simp) j2).eq tH2_rep (by rw [toy_signs2.2.2.2.2.2.2.2.1, Bool.true_or])
  have h3 := (hA _ _ toyH3 (by simp) j3).eq (prep_add toyEA'_good tH1_rep tH2_rep) toy_signs2.2.2.2.2.2.2.2.2.1
  obtain ⟨ψ, hψ, g1, g2, hk⟩ : ∃ ψ : MPoint toyE2.A →+ MPoint toyEA.A,
      (IsChain toyE2 L toyEA ψ ∨ IsChain toyE2 L toyEA (-ψ)) ∧ ψA (ψ tX2) = tH1 ∧ ψA (ψ tY2) = tH2 ∧
      ∀ Q, ψ Q = 0 ↔ Q ∈ AddSubgroup.zmultiples (φ2 tQA) := by
    rcases sign_pair (ψA.comp χ) h1 h2 h3
      (ne_of_isInf (prep_double toyEA'_good tH1_rep) toy_signs2.2.2.2.2.2.2.2.2.2.1)
      (ne_of_isInf (prep_double toyEA'_good tH2_rep) toy_signs2.2.2.2.2.2.2.2.2.2.2.1) with ⟨e1, e2⟩ | ⟨e1, e2⟩
    · exact ⟨χ, Or.inl hc, e1, e2, hk⟩
    · refine ⟨-χ, Or.inr (chain_neg hc), ?_, ?_, ?_⟩
      · rw [AddMonoidHom.comp_apply] at e1
        rw [AddMonoidHom.neg_apply, map_neg, e1, neg_neg]
      · rw [AddMonoidHom.comp_apply] at e2
        rw [AddMonoidHom.neg_apply, map_neg, e2, neg_neg]
      · intro Q; rw [AddMonoidHom.neg_apply, neg_eq_zero]; exact hk Q
  have hK := prep_add toyEA_good tPA_rep (prep_mulD toyEA_good tQA_rep 149)
  have vK : φ2 (tPA + toyM.s2 • tQA) = 0 := (hker _).mpr (AddSubgroup.mem_zmultiples _)
  have vQ : ψ (φ2 tQA) = 0 := (hk _).mpr (AddSubgroup.mem_zmultiples _)
  have vP : ψ (φ2 tPA) = 0 := by
    have := congrArg ψ vK
    rwa [map_add, map_add, map_nsmul, map_nsmul, vQ, nsmul_zero, add_zero, map_zero] at this
  have zX : φ2 (ψ tX2) = 0 := by
    rcases (PM.chain hψ (Or.inl tX2_rep) (vals hv (z := toyJ1) (by simp))).mul toyEA_good hK
      toy_signs2.2.2.2.2.2.2.2.2.2.2.2.1 with h | h
    · rw [h, map_nsmul]; exact (congrArg _ vK).trans (nsmul_zero _)
    · rw [h, map_neg, map_nsmul]; exact neg_eq_zero.mpr ((congrArg _ vK).trans (nsmul_zero _))
  have zY : φ2 (ψ tY2) = 0 := by
    rcases (PM.chain hψ (Or.inl tY2_rep) (vals hv (z := toyJ2) (by simp))).mul toyEA_good hK
      toy_signs2.2.2.2.2.2.2.2.2.2.2.2.2 with h | h
    · rw [h, map_nsmul]; exact (congrArg _ vK).trans (nsmul_zero _)
    · rw [h, map_neg, map_nsmul]; exact neg_eq_zero.mpr ((congrArg _ vK).trans (nsmul_zero _))
  refine ⟨ψ, ⟨?_, ?_, ?_⟩, g1, g2⟩
  · intro X hX
    exact hom_ext_basis toyEA_good (by decide +kernel) toy_bA hX (f := ψ.comp φ2) (g := toyS.d2 • AddMonoidHom.id _)
      (vP.trans toy_bA.nsmul_left.symm) (vQ.trans toy_bA.nsmul_right.symm)
  · intro Y hY
    exact hom_ext_basis toyE2_good (by decide +kernel) toy_by hY (f := φ2.comp ψ) (g := toyS.d2 • AddMonoidHom.id _)
      (zX.trans toy_by.nsmul_left.symm) (zY.trans toy_by.nsmul_right.symm)
  · intro Y _ h0
    obtain ⟨k, rfl⟩ := AddSubgroup.mem_zmultiples_iff.mp ((hk _).mp h0)
    exact ⟨k • tQA, by rw [smul_comm, toy_bA.nsmul_right, smul_zero], map_zsmul _ _ _⟩

/-- The images on `EA'`. -/
theorem toy_images :
    (toyl1.equals (toyEA'.add (toyEA'.add (toyEA'.mulD toySkP1 (139 * 11408506880 + 343 * 4853857 * 100663297))
      (toyEA'.mulD toySkQ1 (139 * 287 * 11408506880))) (toyEA'.mulD toyH1 5)).neg) = true ∧
    (toyl2.equals (toyEA'.add (toyEA'.add (toyEA'.mulD toySkP1 (336 * 11408506880))
      (toyEA'.mulD toySkQ1 (336 * 287 * 11408506880 + 343 * 8688545 * 100663297))) (toyEA'.mulD toyH2 5)).neg) = true ∧
    toyEA'.offAxis (toyEA'.mulD (toyEA'.mulD toyl1 (2 ^ 25)) 169) (toyEA'.mulD toySkP1 (2 ^ 25)) 7 49 = true ∧
    toyEA'.offAxis (toyEA'.mulD (toyEA'.mulD toyl2 (2 ^ 25)) 169) (toyEA'.mulD toySkP1 (2 ^ 25)) 1 343 = true ∧
    toyEA'.offAxis (toyEA'.mulD (toyEA'.mulD toyl1 (2 ^ 25)) 343) toySkP2 13 13 = true ∧
    toyEA'.offAxis (toyEA'.mulD (toyEA'.mulD toyl2 (2 ^ 25)) 343) toySkP2 13 13 = true ∧
    toyEA'.hasPow (toyEA'.mulD (toyEA'.mulD toyl1 (2 ^ 25)) 169) 7 2 = true ∧
    toyEA'.hasPow (toyEA'.mulD (toyEA'.mulD toyl2 (2 ^ 25)) 169) 7 1 = true ∧
    toyEA'.hasPow (toyEA'.mulD (toyEA'.mulD toyl1 (2 ^ 25)) 343) 13 1 = true ∧
    toyEA'.hasPow (toyEA'.mulD (toyEA'.mulD toyl2 (2 ^ 25)) 343) 13 1 = true := by decide +kernel

/-- The inversion, a case of `C54_inverse_partial` in which all its hypotheses are proved. -/
theorem toy_invert : toyS.trapdoorInverse true 20 toyOut toySk = some toyM := by
  obtain ⟨φA1, φA2, L2, hv2, hc2, hkey, hbl⟩ := toy_key
  obtain ⟨φ1, φ2, hout, hw1, hw2⟩ := toy_value hkey hbl
  obtain ⟨k, P2, Q2, -, hP2, hQ2, -⟩ := hkey.basis
  obtain ⟨ψ1, hD1, x1, y1⟩ := toy_dual1 hout.isog1 hout.ker1 hout.r1 hout.s1 hw1
  obtain ⟨ψA, hDA, hA⟩ := toy_dualA2 hc2 hv2 hP2 hQ2
  obtain ⟨ψ2, hD2, x2, y2⟩ := toy_dual2 hout.ker2 hw2 hA
  have hl1 := prep_pt toyEA'_good toy_on.2.2.2.2.2.2.2.2.2.2.2.2.2.1
  have hl2 := prep_pt toyEA'_good toy_on.2.2.2.2.2.2.2.2.2.2.2.2.2.2.1
  have lP := toy_b.nsmul_left
  have lQ := toy_b.nsmul_right
  have dP := toy_b1.nsmul_left
  have dQ := toy_b1.nsmul_right
  have uP : ψ1 (φ1 tPb) = 343 • tPb := hD1.left _ (by rw [mul_comm, mul_nsmul', lP, nsmul_zero])
  have uQ : ψ1 (φ1 tQb) = 343 • tQb := hD1.left _ (by rw [mul_comm, mul_nsmul', lQ, nsmul_zero])
  have p1 : PRep toySkP1 (φA1 (tPb + tPd1)) := hkey.p1
  have q1 : PRep toySkQ1 (φA1 (tQb + tQd1)) := hkey.q1
  have e1 : toyEA'.pt toyl1 = -(1 • φA1 (ψ1 (tX1 + 4853857 • φ1 tPb)) + 5 • ψA (ψ2 tX2)) := by
    have h := (prep_equals hl1 (prep_neg (prep_add toyEA'_good (prep_add toyEA'_good (prep_mulD toyEA'_good p1 _)
      (prep_mulD toyEA'_good q1 _)) (prep_mulD toyEA'_good tH1_rep 5)))).mp toy_images.1
    rw [h, x2, ← map_nsmul φA1, ← map_nsmul φA1, ← map_add φA1, map_add ψ1, map_nsmul ψ1, uP, x1, one_nsmul]
    congr 3
    simp only [nsmul_add, ← mul_nsmul']
    rw [nsmul_congr lP (a := 139 * 11408506880 + 343 * 4853857 * 100663297) (b := 4853857 * 343) (by decide +kernel),
      nsmul_congr dP (a := 139 * 11408506880 + 343 * 4853857 * 100663297) (b := 139) (by decide +kernel),
      nsmul_congr lQ (a := 139 * 287 * 11408506880) (b := 0) (by decide +kernel),
      nsmul_congr dQ (a := 139 * 287 * 11408506880) (b := 139 * toyM.s1) (by decide +kernel), zero_nsmul]
    abel
  have e2 : toyEA'.pt toyl2 = -(1 • φA1 (ψ1 (tY1 + 8688545 • φ1 tQb)) + 5 • ψA (ψ2 tY2)) := by
    have h := (prep_equals hl2 (prep_neg (prep_add toyEA'_good (prep_add toyEA'_good (prep_mulD toyEA'_good p1 _)
      (prep_mulD toyEA'_good q1 _)) (prep_mulD toyEA'_good tH2_rep 5)))).mp toy_images.2.1
    rw [h, y2, ← map_nsmul φA1, ← map_nsmul φA1, ← map_add φA1, map_add ψ1, map_nsmul ψ1, uQ, y1, one_nsmul]
    congr 3
    simp only [nsmul_add, ← mul_nsmul']
    rw [nsmul_congr lP (a := 336 * 11408506880) (b := 0) (by decide +kernel),
      nsmul_congr dP (a := 336 * 11408506880) (b := 336) (by decide +kernel),
      nsmul_congr lQ (a := 336 * 287 * 11408506880 + 343 * 8688545 * 100663297) (b := 8688545 * 343) (by decide +kernel),
      nsmul_congr dQ (a := 336 * 287 * 11408506880 + 343 * 8688545 * 100663297) (b := 336 * toyM.s1) (by decide +kernel),
      zero_nsmul]
    abel
  have m1 := prep_mulD toyEA'_good hl1 (2 ^ 25)
  have m2 := prep_mulD toyEA'_good hl2 (2 ^ 25)
  have n1 := prep_mulD toyEA'_good m1 169
  have n2 := prep_mulD toyEA'_good m2 169
  have k1 := prep_mulD toyEA'_good m1 343
  have k2 := prep_mulD toyEA'_good m2 343
  have all2 : ∀ {f : MPoint toyEA'.A → Prop}, f (toyEA'.pt toyl1) → f (toyEA'.pt toyl2) →
      ∀ L ∈ [toyEA'.pt toyl1, toyEA'.pt toyl2], f L := by
    intro f h1 h2 L hL
    simp only [List.mem_cons, List.not_mem_nil, or_false] at hL
    rcases hL with rfl | rfl
    · exact h1
    · exact h2
  have a1 : ∀ L ∈ [toyEA'.pt toyl1, toyEA'.pt toyl2],
      AxisFree 343 (2 ^ 25 • φA1 (tPb + tPd1)) (169 • (2 ^ 25 • L)) :=
    all2 (free_axis toyEA'_good n1 (prep_mulD toyEA'_good p1 (2 ^ 25)) (by norm_num) toy_images.2.2.1)
      (free_axis toyEA'_good n2 (prep_mulD toyEA'_good p1 (2 ^ 25)) (by norm_num) toy_images.2.2.2.1)
  have a2 : ∀ L ∈ [toyEA'.pt toyl1, toyEA'.pt toyl2], ∀ P2 : MPoint toyEA'.A, PRep toySkP2 P2 →
      AxisFree 169 P2 (343 • (2 ^ 25 • L)) :=
    all2 (fun P hP => free_axis toyEA'_good k1 hP (by norm_num) toy_images.2.2.2.2.1)
      (fun P hP => free_axis toyEA'_good k2 hP (by norm_num) toy_images.2.2.2.2.2.1)
  have c1 : ∀ L ∈ [toyEA'.pt toyl1, toyEA'.pt toyl2], ChainFree 343 (169 • (2 ^ 25 • L)) := by
    refine all2 (chainFree_of_order (by norm_num) (order_pow toyEA'_good n1 (r := 7) (e := 2) (by norm_num)
        toy_images.2.2.2.2.2.2.1)) ?_
    have ho := order_pow toyEA'_good n2 (r := 7) (e := 1) (by norm_num) toy_images.2.2.2.2.2.2.2.1
    have hd : ∀ t, t ≤ 8 → 1 ≤ t → ¬7 ^ (1 + 1) ∣ 343 >>> t ∧
      (Nat.testBit 343 (t - 1) = true → ¬7 ^ (1 + 1) ∣ 2 * (343 >>> t)) := by decide +kernel
    intro t ht1 ht2
    obtain ⟨h1, h2⟩ := hd t (ht2.trans (by decide +kernel)) ht1
    exact ⟨fun h0 => h1 (ho ▸ addOrderOf_dvd_of_nsmul_eq_zero h0), fun hb h0 =>
      h2 hb (ho ▸ addOrderOf_dvd_of_nsmul_eq_zero h0)⟩
  have c2 : ∀ L ∈ [toyEA'.pt toyl1, toyEA'.pt toyl2], ChainFree 169 (343 • (2 ^ 25 • L)) :=
    all2 (chainFree_of_order (by norm_num) (order_pow toyEA'_good k1 (r := 13) (e := 1) (by norm_num)
        toy_images.2.2.2.2.2.2.2.2.1))
      (chainFree_of_order (by norm_num) (order_pow toyEA'_good k2 (r := 13) (e := 1) (by norm_num)
        toy_images.2.2.2.2.2.2.2.2.2))
  exact C54_inverse_partial true 20 toyS toy_sound toy_norm toyPk toySk toyM toyOut toy_b toy_b1 toy_bA hkey hout
    (by decide +kernel) (by decide +kernel) (by decide +kernel) (by decide +kernel) (by decide +kernel) (by decide +kernel)
    toy_tb1 tX1_rep tY1_rep toy_bx toy_tb2 tX2_rep tY2_rep toy_by hD1 hD2 hDA toy_glue.1 toy_glue.2.1 toy_glue.2.2.1
    toy_glue.2.2.2.1 toy_glue.2.2.2.2.1 toy_glue.2.2.2.2.2 toy_product toy_choose hl1 hl2 (Or.inr e1) (Or.inr e2) a1 a2 c1 c2

end Festa
