import Verif.Props.Malleable
import Verif.Props.SerialCase
import Verif.Lemmas.ToyNegData
import Verif.Lemmas.ToyScaleData
/-! The small version of the scheme as a concrete case of C88. -/
namespace Festa

/-! ### The value with the signs on the first curve changed -/

theorem toyn_gens : toyS.glueGens toyOut.negFirst toySk = some (⟨toyR1.neg, toygP⟩, ⟨toyS1.neg, toygQ⟩) := by
  unfold Crypto.glueGens
  have r : toyOut.negFirst.E2.mulBig toyOut.negFirst.R2 19892335 = some toyr := toy_glue.2.2.1
  have s : toyOut.negFirst.E2.mulBig toyOut.negFirst.S2 417873 = some toys := toy_glue.2.2.2.1
  have p : toyOut.negFirst.E2.mulBig toyr toyS.g2 = some toygP := toy_glue.2.2.2.2.1
  have q : toyOut.negFirst.E2.mulBig toys toyS.g2 = some toygQ := toy_glue.2.2.2.2.2
  simp only [Option.bind_eq_bind, toy_glue.1, toy_glue.2.1, Option.bind_some, r, s, p, q]
  rfl

theorem toyn_glue_eq : gluingIsogeny ⟨toyE1, toyE2⟩ (EProd.doubleIter ⟨toyE1, toyE2⟩ ⟨toyR1.neg, toygP⟩ (23 - 1))
    (EProd.doubleIter ⟨toyE1, toyE2⟩ ⟨toyS1.neg, toygQ⟩ (23 - 1)) [⟨toyR1.neg, toygP⟩, ⟨toyS1.neg, toygQ⟩] =
      (ThStr.new toyncO21, [toyncK21, toyncL21]) := by
  have h := toynGlue_any
  rw [show 23 - 1 = 22 from rfl]
  rw [gluing_eq] at h ⊢
  simp only [List.map_cons, List.map_nil, Bool.and_eq_true, decide_eq_true_eq, ThStr.new] at h
  obtain ⟨⟨h1, h2⟩, h3⟩ := h
  rw [h1]
  simp only [List.map_cons, List.map_nil, h2, h3]

theorem toyn_generic {φA1 : MPoint toyE0.A →+ MPoint toyEA'.A} (p1 : PRep toySkP1 (φA1 (tPb + tPd1))) {L : MPoint toyEA'.A}
    (hL : PRep toynl1 L ∨ PRep toynl2 L) :
    AxisFree 343 (2 ^ 25 • φA1 (tPb + tPd1)) (169 • (2 ^ 25 • L)) ∧
    (∀ P2 : MPoint toyEA'.A, PRep toySkP2 P2 → AxisFree 169 P2 (343 • (2 ^ 25 • L))) ∧
    ChainFree 343 (169 • (2 ^ 25 • L)) ∧ ChainFree 169 (343 • (2 ^ 25 • L)) := by
  rcases hL with hl | hl
  · have m := prep_mulD toyEA'_good hl (2 ^ 25)
    have n := prep_mulD toyEA'_good m 169
    have k := prep_mulD toyEA'_good m 343
    exact ⟨free_axis toyEA'_good n (prep_mulD toyEA'_good p1 (2 ^ 25)) (by norm_num) toyn_images.1,
      fun P hP => free_axis toyEA'_good k hP (by norm_num) toyn_images.2.2.1,
      chainFree_of_order (by norm_num) (order_pow toyEA'_good n (r := 7) (e := 2) (by norm_num) toyn_images.2.2.2.2.1),
      chainFree_of_order (by norm_num) (order_pow toyEA'_good k (r := 13) (e := 1) (by norm_num) toyn_images.2.2.2.2.2.2.1)⟩
  · have m := prep_mulD toyEA'_good hl (2 ^ 25)
    have n := prep_mulD toyEA'_good m 169
    have k := prep_mulD toyEA'_good m 343
    refine ⟨free_axis toyEA'_good n (prep_mulD toyEA'_good p1 (2 ^ 25)) (by norm_num) toyn_images.2.1,
      fun P hP => free_axis toyEA'_good k hP (by norm_num) toyn_images.2.2.2.1, ?_,
      chainFree_of_order (by norm_num) (order_pow toyEA'_good k (r := 13) (e := 1) (by norm_num) toyn_images.2.2.2.2.2.2.2)⟩
    have ho := order_pow toyEA'_good n (r := 7) (e := 1) (by norm_num) toyn_images.2.2.2.2.2.1
    have hd : ∀ t, t ≤ 8 → 1 ≤ t → ¬7 ^ (1 + 1) ∣ 343 >>> t ∧
      (Nat.testBit 343 (t - 1) = true → ¬7 ^ (1 + 1) ∣ 2 * (343 >>> t)) := by decide +kernel
    intro t ht1 ht2
    obtain ⟨h1, h2⟩ := hd t (ht2.trans (by decide +kernel)) ht1
    exact ⟨fun h0 => h1 (ho ▸ addOrderOf_dvd_of_nsmul_eq_zero h0), fun hb h0 =>
      h2 hb (ho ▸ addOrderOf_dvd_of_nsmul_eq_zero h0)⟩

theorem toyn_clean {φA1 : MPoint toyE0.A →+ MPoint toyEA'.A} (p1 : PRep toySkP1 (φA1 (tPb + tPd1))) :
    toyS.CleanOut true 20 toySk toyOut.negFirst := by
  refine ⟨⟨tX1, tY1, toy_bx.ne_left (by decide +kernel), toy_bx.free (by decide +kernel), _, _, toy_tb1, tX1_rep, tY1_rep⟩,
    ⟨tX2, tY2, toy_by.ne_left (by decide +kernel), toy_by.free (by decide +kernel), _, _, toy_tb2, tX2_rep, tY2_rep⟩, ?_, ?_⟩
  · intro P Q h
    obtain ⟨rfl, rfl⟩ := Prod.mk.inj (Option.some.inj (toyn_gens.symm.trans h))
    exact ⟨_, _, _, toyn_glue_eq, toynChain21.jac⟩
  · intro P Q x1 y1 x2 y2 E34 I1 I2 l1 l2 h t1 t2 hp hch L hL
    obtain ⟨rfl, rfl⟩ := Prod.mk.inj (Option.some.inj (toyn_gens.symm.trans h))
    obtain ⟨rfl, rfl⟩ := Prod.mk.inj (Option.some.inj (toy_tb1.symm.trans t1))
    obtain ⟨rfl, rfl⟩ := Prod.mk.inj (Option.some.inj (toy_tb2.symm.trans t2))
    have h := Option.some.inj (toyn_product.symm.trans hp)
    simp only [Prod.mk.injEq, List.cons.injEq, and_true] at h
    obtain ⟨rfl, rfl, rfl⟩ := h
    obtain ⟨rfl, rfl⟩ := Prod.mk.inj (Option.some.inj (toyn_choose.symm.trans hch))
    obtain ⟨h1, h2, h3, h4⟩ := toyn_generic p1 hL
    refine ⟨fun P1 hP1 => ?_, h2, h3, h4⟩
    obtain rfl : P1 = φA1 (tPb + tPd1) := (prep_equals hP1 p1).mp (by decide +kernel)
    exact h1

/-! ### The value with its points multiplied by 3 and by the inverse of 3 -/

/-- The value. -/
def toymOut : TrapdoorOutput Toy := ⟨toyE1, toymR1, toymS1, toyE2, toymR2, toymS2⟩

theorem toym_scale : toyOut.scale 3 11184811 = some toymOut := by
  unfold TrapdoorOutput.scale
  have r1 : toyOut.E1.mulBig toyOut.R1 3 = some toymR1 := by decide +kernel
  have s1 : toyOut.E1.mulBig toyOut.S1 11184811 = some toymS1 := by decide +kernel
  have r2 : toyOut.E2.mulBig toyOut.R2 3 = some toymR2 := by decide +kernel
  have s2 : toyOut.E2.mulBig toyOut.S2 11184811 = some toymS2 := by decide +kernel
  simp only [Option.bind_eq_bind, Option.bind_some, r1, s1, r2, s2]
  rfl

theorem toym_gens : toyS.glueGens toymOut toySk = some (⟨toymR1, toymgP⟩, ⟨toymS1, toymgQ⟩) := by
  have h : (toyS.glueGens toymOut toySk).any (fun r => decide (r.1.P1 = toymR1) && decide (r.1.P2 = toymgP) &&
      decide (r.2.P1 = toymS1) && decide (r.2.P2 = toymgQ)) = true := by decide +kernel
  obtain ⟨⟨⟨a, b⟩, ⟨c, d⟩⟩, e, h⟩ := of_any h
  simp only [Bool.and_eq_true, decide_eq_true_eq] at h
  obtain ⟨⟨⟨rfl, rfl⟩, rfl⟩, rfl⟩ := h
  exact e

theorem toym_glue_eq : gluingIsogeny ⟨toyE1, toyE2⟩ (EProd.doubleIter ⟨toyE1, toyE2⟩ ⟨toymR1, toymgP⟩ (23 - 1))
    (EProd.doubleIter ⟨toyE1, toyE2⟩ ⟨toymS1, toymgQ⟩ (23 - 1)) [⟨toymR1, toymgP⟩, ⟨toymS1, toymgQ⟩] =
      (ThStr.new toymcO21, [toymcK21, toymcL21]) := by
  have h := toymGlue_any
  rw [show 23 - 1 = 22 from rfl]
  rw [gluing_eq] at h ⊢
  simp only [List.map_cons, List.map_nil, Bool.and_eq_true, decide_eq_true_eq, ThStr.new] at h
  obtain ⟨⟨h1, h2⟩, h3⟩ := h
  rw [h1]
  simp only [List.map_cons, List.map_nil, h2, h3]

theorem toym_generic {φA1 : MPoint toyE0.A →+ MPoint toyEA'.A} (p1 : PRep toySkP1 (φA1 (tPb + tPd1))) {L : MPoint toyEA'.A}
    (hL : PRep toyml1 L ∨ PRep toyml2 L) :
    AxisFree 343 (2 ^ 25 • φA1 (tPb + tPd1)) (169 • (2 ^ 25 • L)) ∧
    (∀ P2 : MPoint toyEA'.A, PRep toySkP2 P2 → AxisFree 169 P2 (343 • (2 ^ 25 • L))) ∧
    ChainFree 343 (169 • (2 ^ 25 • L)) ∧ ChainFree 169 (343 • (2 ^ 25 • L)) := by
  rcases hL with hl | hl
  · have m := prep_mulD toyEA'_good hl (2 ^ 25)
    have n := prep_mulD toyEA'_good m 169
    have k := prep_mulD toyEA'_good m 343
    exact ⟨free_axis toyEA'_good n (prep_mulD toyEA'_good p1 (2 ^ 25)) (by norm_num) toym_images.1,
      fun P hP => free_axis toyEA'_good k hP (by norm_num) toym_images.2.2.1,
      chainFree_of_order (by norm_num) (order_pow toyEA'_good n (r := 7) (e := 2) (by norm_num) toym_images.2.2.2.2.1),
      chainFree_of_order (by norm_num) (order_pow toyEA'_good k (r := 13) (e := 1) (by norm_num) toym_images.2.2.2.2.2.2.1)⟩
  · have m := prep_mulD toyEA'_good hl (2 ^ 25)
    have n := prep_mulD toyEA'_good m 169
    have k := prep_mulD toyEA'_good m 343
    refine ⟨free_axis toyEA'_good n (prep_mulD toyEA'_good p1 (2 ^ 25)) (by norm_num) toym_images.2.1,
      fun P hP => free_axis toyEA'_good k hP (by norm_num) toym_images.2.2.2.1, ?_,
      chainFree_of_order (by norm_num) (order_pow toyEA'_good k (r := 13) (e := 1) (by norm_num) toym_images.2.2.2.2.2.2.2)⟩
    have ho := order_pow toyEA'_good n (r := 7) (e := 1) (by norm_num) toym_images.2.2.2.2.2.1
    have hd : ∀ t, t ≤ 8 → 1 ≤ t → ¬7 ^ (1 + 1) ∣ 343 >>> t ∧
      (Nat.testBit 343 (t - 1) = true → ¬7 ^ (1 + 1) ∣ 2 * (343 >>> t)) := by decide +kernel
    intro t ht1 ht2
    obtain ⟨h1, h2⟩ := hd t (ht2.trans (by decide +kernel)) ht1
    exact ⟨fun h0 => h1 (ho ▸ addOrderOf_dvd_of_nsmul_eq_zero h0), fun hb h0 =>
      h2 hb (ho ▸ addOrderOf_dvd_of_nsmul_eq_zero h0)⟩

theorem toym_clean {φA1 : MPoint toyE0.A →+ MPoint toyEA'.A} (p1 : PRep toySkP1 (φA1 (tPb + tPd1))) :
    toyS.CleanOut true 20 toySk toymOut := by
  refine ⟨⟨tX1, tY1, toy_bx.ne_left (by decide +kernel), toy_bx.free (by decide +kernel), _, _, toy_tb1, tX1_rep, tY1_rep⟩,
    ⟨tX2, tY2, toy_by.ne_left (by decide +kernel), toy_by.free (by decide +kernel), _, _, toy_tb2, tX2_rep, tY2_rep⟩, ?_, ?_⟩
  · intro P Q h
    obtain ⟨rfl, rfl⟩ := Prod.mk.inj (Option.some.inj (toym_gens.symm.trans h))
    exact ⟨_, _, _, toym_glue_eq, toymChain21.jac⟩
  · intro P Q x1 y1 x2 y2 E34 I1 I2 l1 l2 h t1 t2 hp hch L hL
    obtain ⟨rfl, rfl⟩ := Prod.mk.inj (Option.some.inj (toym_gens.symm.trans h))
    obtain ⟨rfl, rfl⟩ := Prod.mk.inj (Option.some.inj (toy_tb1.symm.trans t1))
    obtain ⟨rfl, rfl⟩ := Prod.mk.inj (Option.some.inj (toy_tb2.symm.trans t2))
    have h := Option.some.inj (toym_product.symm.trans hp)
    simp only [Prod.mk.injEq, List.cons.injEq, and_true] at h
    obtain ⟨rfl, rfl, rfl⟩ := h
    obtain ⟨rfl, rfl⟩ := Prod.mk.inj (Option.some.inj (toym_choose.symm.trans hch))
    obtain ⟨h1, h2, h3, h4⟩ := toym_generic p1 hL
    refine ⟨fun P1 hP1 => ?_, h2, h3, h4⟩
    obtain rfl : P1 = φA1 (tPb + tPd1) := (prep_equals hP1 p1).mp (by decide +kernel)
    exact h1

/-- A case of `C88_malleable` in which all its hypotheses are proved.  Anybody can turn the value of the input
`(287, 149, diag(4853857, 8688545))` of the small version of the scheme into that of the input with the first entry of the matrix
multiplied by 3, and into something that is no value and inverts to the same input. -/
example : toyS.trapdoorEval true 20 toyPk toyM = some toyOut ∧ toyOut.scale 3 11184811 = some toymOut ∧
    toyS.trapdoorInverse true 20 toymOut toySk = some ⟨287, 149, 14561571, 25265803⟩ ∧
    (∃ c', toyS.trapdoorEval true 20 toyPk ⟨287, 149, 14561571, 25265803⟩ = some c' ∧ toymOut.encode = c'.encode) ∧
    toyS.trapdoorInverse true 20 toyOut.negFirst toySk = some toyM ∧ toyOut.encode ≠ toyOut.negFirst.encode := by
  obtain ⟨L1, h1⟩ : ∃ L, randomIsogeny true toyC.fA1 toyDraws1 toyE0 = some (L, toyEA') := by
    obtain ⟨⟨L, E⟩, e, rfl⟩ := Option.map_eq_some_iff.mp toy_rand1
    exact ⟨L, e⟩
  obtain ⟨L2, h2, hv⟩ : ∃ L, randomIsogeny true toyC.fA2 toyDraws2 toyEA' = some (L, toyEA) ∧
      chainVals toyEA' toyEA [(toyP', toyPhiP), (toyQ', toyPhiQ), (toySkP2, toyF1), (toySkQ2, toyF2),
        (toyEA'.add toySkP2 toySkQ2, toyF3)] L = true := by
    obtain ⟨⟨L, E⟩, e, h⟩ := of_any toy_rand2
    rw [Bool.and_eq_true, decide_eq_true_eq] at h
    obtain ⟨rfl, h⟩ := h
    exact ⟨L, e, h⟩
  have hP' := prep_pt toyEA'_good toy_on.2.2.2.2.1
  have hQ' := prep_pt toyEA'_good toy_on.2.2.2.2.2.1
  have p1 : PRep toyPd1' tPd1 := by
    have h := prep_pt toyE0_good (p := toyPd1') (by decide +kernel)
    rwa [(prep_equals h tPd1_rep).mp toy_same.1] at h
  have q1 : PRep toyQd1' tQd1 := by
    have h := prep_pt toyE0_good (p := toyQd1') (by decide +kernel)
    rwa [(prep_equals h tQd1_rep).mp toy_same.2.1] at h
  have p2 : PRep toyPA' tPA := by
    have h := prep_pt toyEA_good (p := toyPA') (by decide +kernel)
    rwa [(prep_equals h tPA_rep).mp toy_same.2.2.1] at h
  have q2 : PRep toyQA' tQA := by
    have h := prep_pt toyEA_good (p := toyQA') (by decide +kernel)
    rwa [(prep_equals h tQA_rep).mp toy_same.2.2.2] at h
  have off : ∀ {x y : Pt Toy} {X Y : MPoint toyEA.A}, PRep x X → PM y Y → toyEA.offAxis x y 13 13 = true →
      X ∉ AddSubgroup.zmultiples Y := by
    intro x y X Y hx hy hc
    rcases hy with hy | hy
    · exact off_axis toyEA_good hx hy (by norm_num) hc
    · have := off_axis toyEA_good hx hy (by norm_num) hc
      rwa [AddSubgroup.zmultiples_neg] at this
  obtain ⟨c0, c3, c9, -, -, -⟩ := toy_kani_curves
  obtain ⟨φA1, φA2, _, _, _, hkey, _⟩ := toy_key
  have hb' := isBasis_of_pow_check toyEA'_good hP' hQ' (r := 13) (e := 1) (by norm_num) toy_bases.2.2.1
  obtain ⟨pk, sk, hk, h⟩ := C88_malleable toyP toy_card (by norm_num) 20 toyS toy_sound toy_norm toyE0_good rfl
    (by decide +kernel) (by decide +kernel) (by decide +kernel) (by decide +kernel) toy_strategy
    (by refine ⟨⟨?_, ?_⟩, ?_⟩ <;> decide +kernel) (by refine ⟨⟨?_, ?_⟩, ?_⟩ <;> decide +kernel)
    (by decide +kernel) (by decide +kernel) toyDraws1 toyDraws2 (by decide +kernel) (by decide +kernel) (by decide +kernel)
    (by decide +kernel) tPb_rep tQb_rep toy_b toy_half tPd1_rep tQd1_rep toy_b1 ⟨_, _, toy_tb0, p1, q1⟩ toyr11 toyr22 h1 h2
    (hb'.ne_left (by decide +kernel)) (hb'.free (by decide +kernel)) ⟨_, _, toy_tbA', hP', hQ'⟩
    (toy_bA.ne_left (by decide +kernel)) (toy_bA.free (by decide +kernel)) ⟨_, _, toy_tbA, tPA_rep, tQA_rep⟩ ⟨_, _, toy_tbA634, p2, q2⟩ (fun φ c X hX => by
      have vP : PM toyPhiP (φ (toyEA'.pt toyP')) := PM.chain (Or.inl c) (Or.inl hP') (vals hv (by simp))
      have vQ : PM toyPhiQ (φ (toyEA'.pt toyQ')) := PM.chain (Or.inl c) (Or.inl hQ') (vals hv (by simp))
      simp only [List.mem_cons, List.not_mem_nil, or_false] at hX
      rcases hX with rfl | rfl
      · exact ⟨.of_not_mem (off tPA_rep vP toy_axes.1), .of_not_mem (off tPA_rep vQ toy_axes.2.1)⟩
      · exact ⟨.of_not_mem (off tQA_rep vP toy_axes.2.2.1), .of_not_mem (off tQA_rep vQ toy_axes.2.2.2)⟩) c0 c3 c9
  obtain ⟨rfl, rfl⟩ := Prod.mk.inj (Option.some.inj (toy_keygen.symm.trans hk))
  obtain ⟨c, hev, hsc, hng⟩ := h toyM (by decide +kernel) (by decide +kernel) (by decide +kernel) (by decide +kernel)
    (by decide +kernel) (by decide +kernel)
  obtain rfl := Option.some.inj (toy_eval.symm.trans hev)
  obtain ⟨d, c', hd, hev', henc, hinv, -⟩ := hsc 3 11184811 (by decide +kernel)
  obtain rfl := Option.some.inj (toym_scale.symm.trans hd)
  obtain ⟨hn1, hn2⟩ := hng (toyn_clean hkey.p1)
  exact ⟨toy_eval, toym_scale, hinv (toym_clean hkey.p1), ⟨c', hev', henc⟩, hn1,
    hn2 toyM toyOut (by decide +kernel) (by decide +kernel) (by decide +kernel) (by decide +kernel) (by decide +kernel)
      (by decide +kernel) toy_eval⟩

end Festa
