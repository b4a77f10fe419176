import Verif.Props.RoundTrip
import Verif.Props.KaniCase
/-! The small version of the scheme as a concrete case of C73. -/
namespace Festa

theorem toy_any_images (images : List (CPt Toy)) : ∃ Is, productIsogeny ⟨toyE1, toyE2⟩ ⟨toyR1, toygP⟩ ⟨toyS1, toygQ⟩ images
    toyC.thetaLen toyC.strategy = some (⟨toyE3, toyE4⟩, Is) := by
  obtain ⟨o1, o2, o3, o4, k1, k2, -, -, -, -⟩ := toy_ker_on
  have r1 := prep_pt toyE1_good o1
  have r2 := prep_pt toyE1_good o2
  have r3 := prep_pt toyE2_good o3
  have r4 := prep_pt toyE2_good o4
  have b1 := isBasis_of_pow_check toyE1_good r1 r2 (r := 2) (e := 24) (by norm_num) k1
  have b2 := isBasis_of_pow_check toyE2_good r3 r4 (r := 2) (e := 24) (by norm_num) k2
  obtain ⟨E3, E4, F, g3, g4, hF, hb, -, -⟩ := C68_product_hom (E := ⟨toyE1, toyE2⟩) (n := 23) toyE1_good toyE2_good r1 r3 r2 r4
    b1 b2 (by norm_num) toy_glue_eq toyChain21
  have hp := toy_product
  rw [show toyC.thetaLen = 23 from rfl] at hp
  rw [hF _ _ toy_strategy] at hp
  simp only [Option.some.injEq, Prod.mk.injEq, EProd.mk.injEq] at hp
  obtain ⟨⟨rfl, rfl⟩, -⟩ := hp
  exact ⟨_, hF _ images toy_strategy⟩

theorem toy_gens : toyS.glueGens toyOut toySk = some (⟨toyR1, toygP⟩, ⟨toyS1, toygQ⟩) := by
  unfold Crypto.glueGens
  have r : toyOut.E2.mulBig toyOut.R2 19892335 = some toyr := toy_glue.2.2.1
  have s : toyOut.E2.mulBig toyOut.S2 417873 = some toys := toy_glue.2.2.2.1
  have p : toyOut.E2.mulBig toyr toyS.g2 = some toygP := toy_glue.2.2.2.2.1
  have q : toyOut.E2.mulBig toys toyS.g2 = some toygQ := toy_glue.2.2.2.2.2
  simp only [Option.bind_eq_bind, toy_glue.1, toy_glue.2.1, Option.bind_some, r, s, p, q]
  rfl

theorem toy_clean {φA1 : MPoint toyE0.A →+ MPoint toyEA'.A} (p1 : PRep toySkP1 (φA1 (tPb + tPd1))) :
    toyS.CleanOut true 20 toySk toyOut := by
  refine ⟨⟨tX1, tY1, toy_bx.ne_left (by decide +kernel), toy_bx.free (by decide +kernel), _, _, toy_tb1, tX1_rep, tY1_rep⟩,
    ⟨tX2, tY2, toy_by.ne_left (by decide +kernel), toy_by.free (by decide +kernel), _, _, toy_tb2, tX2_rep, tY2_rep⟩, ?_, ?_⟩
  · intro P Q h
    obtain ⟨rfl, rfl⟩ := Prod.mk.inj (Option.some.inj (toy_gens.symm.trans h))
    exact ⟨_, _, _, toy_glue_eq, toyChain21.jac⟩
  · intro P Q x1 y1 x2 y2 E34 I1 I2 l1 l2 h t1 t2 hp hch L hL
    obtain ⟨rfl, rfl⟩ := Prod.mk.inj (Option.some.inj (toy_gens.symm.trans h))
    obtain ⟨rfl, rfl⟩ := Prod.mk.inj (Option.some.inj (toy_tb1.symm.trans t1))
    obtain ⟨rfl, rfl⟩ := Prod.mk.inj (Option.some.inj (toy_tb2.symm.trans t2))
    have h := Option.some.inj (toy_product.symm.trans hp)
    simp only [Prod.mk.injEq, List.cons.injEq, and_true] at h
    obtain ⟨rfl, rfl, rfl⟩ := h
    obtain ⟨rfl, rfl⟩ := Prod.mk.inj (Option.some.inj (toy_choose.symm.trans hch))
    obtain ⟨h1, h2, h3, h4⟩ := toy_generic p1 hL
    refine ⟨fun P1 hP1 => ?_, h2, h3, h4⟩
    obtain rfl : P1 = φA1 (tPb + tPd1) := (prep_equals hP1 p1).mp (by decide +kernel)
    exact h1

/-- A case of `C73_scheme_partial` in which all its hypotheses are proved: a round of the benchmark for the small version of the
scheme. -/
example : toyS.bench true 20 toyr11 toyr22 toyDraws1 toyDraws2 toyM.s1 toyM.s2 toyM.b11 = some () := by
  obtain ⟨L1, h1⟩ : ∃ L, randomIsogeny true toyC.fA1 toyDraws1 toyE0 = some (L, toyEA') := by
    obtain ⟨⟨L, E⟩, e, rfl⟩ := Option.map_eq_some_iff.mp toy_rand1
    exact ⟨L, e⟩
  obtain ⟨L2, h2, hv⟩ : ∃ L, randomIsogeny true toyC.fA2 toyDraws2 toyEA' = some (L, toyEA) ∧
      chainVals toyEA' toyEA [(toyP', toyPhiP), (toyQ', toyPhiQ), (toySkP2, toyF1), (toySkQ2, toyF2),
        (toyEA'.add toySkP2 toySkQ2, toyF3)] L = true := by
    obtain ⟨⟨L, E⟩, e, h⟩ := of_any toy_rand2
    rw [Bool.and_eq_true, decide_eq_true_eq] at h
    obtain ⟨rfl, h⟩ := h
    exact ⟨L, e, h⟩
  have hP' := prep_pt toyEA'_good toy_on.2.2.2.2.1
  have hQ' := prep_pt toyEA'_good toy_on.2.2.2.2.2.1
  have p1 : PRep toyPd1' tPd1 := by
    have h := prep_pt toyE0_good (p := toyPd1') (by decide +kernel)
    rwa [(prep_equals h tPd1_rep).mp toy_same.1] at h
  have q1 : PRep toyQd1' tQd1 := by
    have h := prep_pt toyE0_good (p := toyQd1') (by decide +kernel)
    rwa [(prep_equals h tQd1_rep).mp toy_same.2.1] at h
  have p2 : PRep toyPA' tPA := by
    have h := prep_pt toyEA_good (p := toyPA') (by decide +kernel)
    rwa [(prep_equals h tPA_rep).mp toy_same.2.2.1] at h
  have q2 : PRep toyQA' tQA := by
    have h := prep_pt toyEA_good (p := toyQA') (by decide +kernel)
    rwa [(prep_equals h tQA_rep).mp toy_same.2.2.2] at h
  have off : ∀ {x y : Pt Toy} {X Y : MPoint toyEA.A}, PRep x X → PM y Y → toyEA.offAxis x y 13 13 = true →
      X ∉ AddSubgroup.zmultiples Y := by
    intro x y X Y hx hy hc
    rcases hy with hy | hy
    · exact off_axis toyEA_good hx hy (by norm_num) hc
    · have := off_axis toyEA_good hx hy (by norm_num) hc
      rwa [AddSubgroup.zmultiples_neg] at this
  obtain ⟨c0, c3, c9, -, -, -⟩ := toy_kani_curves
  obtain ⟨φA1, φA2, _, _, _, hkey, _⟩ := toy_key
  have hb' := isBasis_of_pow_check toyEA'_good hP' hQ' (r := 13) (e := 1) (by norm_num) toy_bases.2.2.1
  obtain ⟨pk, sk, hk, -, -, h⟩ := C73_scheme_partial toyP toy_card (by norm_num) 20 toyS toy_sound toy_norm toyE0_good rfl
    (by decide +kernel) (by decide +kernel) (by decide +kernel) (by decide +kernel) toy_strategy
    (by refine ⟨⟨?_, ?_⟩, ?_⟩ <;> decide +kernel) (by refine ⟨⟨?_, ?_⟩, ?_⟩ <;> decide +kernel)
    (by decide +kernel) (by decide +kernel) toyDraws1 toyDraws2 (by decide +kernel) (by decide +kernel) (by decide +kernel)
    (by decide +kernel) tPb_rep tQb_rep toy_b toy_half tPd1_rep tQd1_rep toy_b1 ⟨_, _, toy_tb0, p1, q1⟩ toyr11 toyr22 h1 h2
    (hb'.ne_left (by decide +kernel)) (hb'.free (by decide +kernel)) ⟨_, _, toy_tbA', hP', hQ'⟩
    (toy_bA.ne_left (by decide +kernel)) (toy_bA.free (by decide +kernel)) ⟨_, _, toy_tbA, tPA_rep, tQA_rep⟩ ⟨_, _, toy_tbA634, p2, q2⟩ (fun φ c X hX => by
      have vP : PM toyPhiP (φ (toyEA'.pt toyP')) := PM.chain (Or.inl c) (Or.inl hP') (vals hv (by simp))
      have vQ : PM toyPhiQ (φ (toyEA'.pt toyQ')) := PM.chain (Or.inl c) (Or.inl hQ') (vals hv (by simp))
      simp only [List.mem_cons, List.not_mem_nil, or_false] at hX
      rcases hX with rfl | rfl
      · exact ⟨.of_not_mem (off tPA_rep vP toy_axes.1), .of_not_mem (off tPA_rep vQ toy_axes.2.1)⟩
      · exact ⟨.of_not_mem (off tQA_rep vP toy_axes.2.2.1), .of_not_mem (off tQA_rep vQ toy_axes.2.2.2)⟩) c0 c3 c9
  obtain ⟨rfl, rfl⟩ := Prod.mk.inj (Option.some.inj (toy_keygen.symm.trans hk))
  obtain ⟨c, hev, hinv⟩ := h toyM (by decide +kernel) (by decide +kernel) (by decide +kernel) (by decide +kernel) (by decide +kernel)
    (by decide +kernel)
  obtain rfl := Option.some.inj (toy_eval.symm.trans hev)
  have hg : genInput toyS.c toyM.s1 toyM.s2 toyM.b11 = some toyM := by
    obtain ⟨m, e, -, -, -, -, -, -⟩ := C63_generated toyC (by decide +kernel) toyM.s1 toyM.s2 toyM.b11 (by decide +kernel)
      (by decide +kernel) (by decide +kernel)
    have : (genInput toyC toyM.s1 toyM.s2 toyM.b11).any (toyM.eq ·) = true := by decide +kernel
    rw [e, Option.any_some] at this
    simp only [TrapdoorInput.eq, Bool.and_eq_true, beq_iff_eq] at this
    obtain ⟨⟨⟨t1, t2⟩, t3⟩, t4⟩ := this
    refine e.trans (congrArg some ?_)
    obtain ⟨a, b, c, d⟩ := m
    exact congr (congr (congr (congrArg TrapdoorInput.mk t1.symm) t2.symm) t3.symm) t4.symm
  exact bench_of toy_keygen hg toy_eval (hinv (toy_clean hkey.p1))

end Festa
