import Verif.Props.Serial
import Verif.Props.RoundTripCase
/-! The small version of the scheme as a concrete case of C74, C75 and C76. -/
namespace Festa

/-- Elements of the small field as two numbers of 82 bytes. -/
instance : Codec Toy where
  encLen := 164
  encode a := (encodeNat a.re).getD [] ++ (encodeNat a.im).getD []
  decode b := if h : b.length = 164 ∧ fromBytesLe (b.take 82) < toyP ∧ fromBytesLe (b.drop 82) < toyP then
      (⟨fromBytesLe (b.take 82), fromBytesLe (b.drop 82), h.2.1, h.2.2⟩, 0xFFFFFFFF)
    else (0, 0)

instance : LawfulCodec Toy := by
  have big : ∀ n < toyP, ∃ b, encodeNat n = some b ∧ b.length = 82 ∧ fromBytesLe b = n := fun n h =>
    (encodeNat_spec n).1 (h.trans (lt_of_lt_of_le (show toyP < 2 ^ 200 by norm_num) (Nat.pow_le_pow_right (by norm_num) (by norm_num))))
  refine ⟨fun a => ?_, fun a => ?_, fun b => ?_⟩
  · obtain ⟨u, hu, lu, -⟩ := big _ a.hre
    obtain ⟨v, hv, lv, -⟩ := big _ a.him
    simp [Codec.encode, Codec.encLen, hu, hv, lu, lv]
  · obtain ⟨u, hu, lu, fu⟩ := big _ a.hre
    obtain ⟨v, hv, lv, fv⟩ := big _ a.him
    have t : (u ++ v).take 82 = u := by rw [← lu]; exact List.take_left
    have d : (u ++ v).drop 82 = v := by rw [← lu]; exact List.drop_left
    have l : (u ++ v).length = 164 := by rw [List.length_append, lu, lv]
    simp only [Codec.encode, Codec.decode, hu, hv, Option.getD_some]
    rw [dif_pos ⟨l, by rw [t, fu]; exact a.hre, by rw [d, fv]; exact a.him⟩]
    simp only [t, d, fu, fv]
  · intro h
    simp only [Codec.decode, Codec.encode] at h ⊢
    split_ifs at h ⊢ with hc
    · have lt : (b.take 82).length = 82 := by rw [List.length_take, hc.1]; norm_num
      have ld : (b.drop 82).length = 82 := by rw [List.length_drop, hc.1]
      simp only [encodeNat_fromBytes lt, encodeNat_fromBytes ld, Option.getD_some, List.take_append_drop]
    · exact absurd h (by decide)

theorem same_mul {K : Type*} [Field K] (P : Pt K) {c : K} (hc : c ≠ 0) : P.Same ⟨c * P.X, c * P.Y, c * P.Z⟩ := ⟨c, hc, rfl⟩

/-- A case of `C74_projective`: the kernel and a point given to `product_isogeny` in the small version of the scheme, with other
coordinates. -/
example : ∃ P' Q' out, P' ≠ (⟨toyR1, toygP⟩ : CPt Toy) ∧ Q' ≠ (⟨toyS1, toygQ⟩ : CPt Toy) ∧
    productIsogeny ⟨toyE1, toyE2⟩ P' Q' [⟨toyR1, toygQ⟩] toyC.thetaLen toyC.strategy = some (⟨toyE3, toyE4⟩, out) := by
  obtain ⟨Is, h⟩ := toy_any_images [⟨toyR1, toygQ⟩]
  have h2 : (2 : Toy) ≠ 0 := RootOps.two_ne
  have h4 : (2 * 2 : Toy) ≠ 0 := mul_ne_zero h2 h2
  have s1 : CPt.Same ⟨toyR1, toygP⟩ ⟨_, toygP⟩ := ⟨same_mul toyR1 h2, Pt.Same.refl toygP⟩
  have s2 : CPt.Same ⟨toyS1, toygQ⟩ ⟨toyS1, _⟩ := ⟨Pt.Same.refl toyS1, same_mul toygQ h4⟩
  obtain ⟨out, h, -⟩ := (C74_projective ⟨toyE1, toyE2⟩ _ _ s1 s2 (.cons (CPt.Same.refl ⟨toyR1, toygQ⟩) .nil)).2 _ _ h
  refine ⟨_, _, out, fun e => ?_, fun e => ?_, h⟩
  · have e := congrArg (fun P => P.P1.Z) e
    exact absurd e (by decide +kernel)
  · have e := congrArg (fun P => P.P2.Z) e
    exact absurd e (by decide +kernel)

/-- A case of `C75_scheme_partial` in which all its hypotheses are proved. -/
example : ∃ v sk' c', toySk.encode = some v ∧ SecretKey.decode true v = some sk' ∧
    TrapdoorOutput.decode true toyOut.encode = some c' ∧ toyS.trapdoorInverse true 20 c' sk' = some toyM := by
  obtain ⟨L1, h1⟩ : ∃ L, randomIsogeny true toyC.fA1 toyDraws1 toyE0 = some (L, toyEA') := by
    obtain ⟨⟨L, E⟩, e, rfl⟩ := Option.map_eq_some_iff.mp toy_rand1
    exact ⟨L, e⟩
  obtain ⟨L2, h2, hv⟩ : ∃ L, randomIsogeny true toyC.fA2 toyDraws2 toyEA' = some (L, toyEA) ∧
      chainVals toyEA' toyEA [(toyP', toyPhiP), (toyQ', toyPhiQ), (toySkP2, toyF1), (toySkQ2, toyF2),
        (toyEA'.add toySkP2 toySkQ2, toyF3)] L = true := by
    obtain ⟨⟨L, E⟩, e, h⟩ := of_any toy_rand2
    rw [Bool.and_eq_true, decide_eq_true_eq] at h
    obtain ⟨rfl, h⟩ := h
    exact ⟨L, e, h⟩
  have hP' := prep_pt toyEA'_good toy_on.2.2.2.2.1
  have hQ' := prep_pt toyEA'_good toy_on.2.2.2.2.2.1
  have p1 : PRep toyPd1' tPd1 := by
    have h := prep_pt toyE0_good (p := toyPd1') (by decide +kernel)
    rwa [(prep_equals h tPd1_rep).mp toy_same.1] at h
  have q1 : PRep toyQd1' tQd1 := by
    have h := prep_pt toyE0_good (p := toyQd1') (by decide +kernel)
    rwa [(prep_equals h tQd1_rep).mp toy_same.2.1] at h
  have p2 : PRep toyPA' tPA := by
    have h := prep_pt toyEA_good (p := toyPA') (by decide +kernel)
    rwa [(prep_equals h tPA_rep).mp toy_same.2.2.1] at h
  have q2 : PRep toyQA' tQA := by
    have h := prep_pt toyEA_good (p := toyQA') (by decide +kernel)
    rwa [(prep_equals h tQA_rep).mp toy_same.2.2.2] at h
  have off : ∀ {x y : Pt Toy} {X Y : MPoint toyEA.A}, PRep x X → PM y Y → toyEA.offAxis x y 13 13 = true →
      X ∉ AddSubgroup.zmultiples Y := by
    intro x y X Y hx hy hc
    rcases hy with hy | hy
    · exact off_axis toyEA_good hx hy (by norm_num) hc
    · have := off_axis toyEA_good hx hy (by norm_num) hc
      rwa [AddSubgroup.zmultiples_neg] at this
  obtain ⟨c0, c3, c9, -, -, -⟩ := toy_kani_curves
  obtain ⟨φA1, φA2, _, _, _, hkey, _⟩ := toy_key
  have hb' := isBasis_of_pow_check toyEA'_good hP' hQ' (r := 13) (e := 1) (by norm_num) toy_bases.2.2.1
  obtain ⟨pk, sk, v, hk, -, -, hv, h⟩ := C75_scheme_partial toyP toy_card (by norm_num) 20 toyS toy_sound toy_norm toyE0_good rfl
    (by decide +kernel) (by decide +kernel) (by decide +kernel) (by decide +kernel) toy_strategy
    (by refine ⟨⟨?_, ?_⟩, ?_⟩ <;> decide +kernel) (by refine ⟨⟨?_, ?_⟩, ?_⟩ <;> decide +kernel)
    (by decide +kernel) (by decide +kernel) toyDraws1 toyDraws2 (by decide +kernel) (by decide +kernel) (by decide +kernel)
    (by decide +kernel) tPb_rep tQb_rep toy_b toy_half tPd1_rep tQd1_rep toy_b1 ⟨_, _, toy_tb0, p1, q1⟩ toyr11 toyr22
    (lt_of_lt_of_le (show toyr11 < 2 ^ 200 by decide +kernel) (Nat.pow_le_pow_right (by norm_num) (by norm_num)))
    (lt_of_lt_of_le (show toyr22 < 2 ^ 200 by decide +kernel) (Nat.pow_le_pow_right (by norm_num) (by norm_num))) h1 h2
    (hb'.ne_left (by decide +kernel)) (hb'.free (by decide +kernel)) ⟨_, _, toy_tbA', hP', hQ'⟩
    (toy_bA.ne_left (by decide +kernel)) (toy_bA.free (by decide +kernel)) ⟨_, _, toy_tbA, tPA_rep, tQA_rep⟩ ⟨_, _, toy_tbA634, p2, q2⟩ (fun φ c X hX => by
      have vP : PM toyPhiP (φ (toyEA'.pt toyP')) := PM.chain (Or.inl c) (Or.inl hP') (vals hv (by simp))
      have vQ : PM toyPhiQ (φ (toyEA'.pt toyQ')) := PM.chain (Or.inl c) (Or.inl hQ') (vals hv (by simp))
      simp only [List.mem_cons, List.not_mem_nil, or_false] at hX
      rcases hX with rfl | rfl
      · exact ⟨.of_not_mem (off tPA_rep vP toy_axes.1), .of_not_mem (off tPA_rep vQ toy_axes.2.1)⟩
      · exact ⟨.of_not_mem (off tQA_rep vP toy_axes.2.2.1), .of_not_mem (off tQA_rep vQ toy_axes.2.2.2)⟩) c0 c3 c9
  obtain ⟨rfl, rfl⟩ := Prod.mk.inj (Option.some.inj (toy_keygen.symm.trans hk))
  obtain ⟨c, hev, hinv⟩ := h toyM (by decide +kernel) (by decide +kernel) (by decide +kernel) (by decide +kernel) (by decide +kernel)
    (by decide +kernel)
  obtain rfl := Option.some.inj (toy_eval.symm.trans hev)
  obtain ⟨sk', c', e1, e2, e3⟩ := hinv (toy_clean hkey.p1)
  exact ⟨v, sk', c', hv, e1, e2, e3⟩

/-- A case of `C76_injective_partial` in which all its hypotheses are proved: no input but `toyM` has the value `toyOut`, in whatever
coordinates. -/
example (m : TrapdoorInput) (c : TrapdoorOutput Toy) (h1 : m.s1 < 343) (h2 : m.s2 < 169) (h3 : m.b11 % 2 = 1) (h4 : m.b11 < 2 ^ 24)
    (h5 : m.b22 < 2 ^ 25) (h6 : m.b11 * m.b22 % 2 ^ 25 = 1) (he : toyS.trapdoorEval true 20 toyPk m = some c)
    (hc : toyOut.encode = c.encode) : m = toyM := by
  have g1 : m.s1 < toyS.d1 := h1
  have g2 : m.s2 < toyS.d2 := h2
  have g4 : m.b11 < toyS.l / 2 := h4
  have g5 : m.b22 < toyS.l := h5
  have g6 : m.b11 * m.b22 % toyS.l = 1 := h6
  clear h1 h2
  obtain ⟨L1, h1⟩ : ∃ L, randomIsogeny true toyC.fA1 toyDraws1 toyE0 = some (L, toyEA') := by
    obtain ⟨⟨L, E⟩, e, rfl⟩ := Option.map_eq_some_iff.mp toy_rand1
    exact ⟨L, e⟩
  obtain ⟨L2, h2, hv⟩ : ∃ L, randomIsogeny true toyC.fA2 toyDraws2 toyEA' = some (L, toyEA) ∧
      chainVals toyEA' toyEA [(toyP', toyPhiP), (toyQ', toyPhiQ), (toySkP2, toyF1), (toySkQ2, toyF2),
        (toyEA'.add toySkP2 toySkQ2, toyF3)] L = true := by
    obtain ⟨⟨L, E⟩, e, h⟩ := of_any toy_rand2
    rw [Bool.and_eq_true, decide_eq_true_eq] at h
    obtain ⟨rfl, h⟩ := h
    exact ⟨L, e, h⟩
  have hP' := prep_pt toyEA'_good toy_on.2.2.2.2.1
  have hQ' := prep_pt toyEA'_good toy_on.2.2.2.2.2.1
  have p1 : PRep toyPd1' tPd1 := by
    have h := prep_pt toyE0_good (p := toyPd1') (by decide +kernel)
    rwa [(prep_equals h tPd1_rep).mp toy_same.1] at h
  have q1 : PRep toyQd1' tQd1 := by
    have h := prep_pt toyE0_good (p := toyQd1') (by decide +kernel)
    rwa [(prep_equals h tQd1_rep).mp toy_same.2.1] at h
  have p2 : PRep toyPA' tPA := by
    have h := prep_pt toyEA_good (p := toyPA') (by decide +kernel)
    rwa [(prep_equals h tPA_rep).mp toy_same.2.2.1] at h
  have q2 : PRep toyQA' tQA := by
    have h := prep_pt toyEA_good (p := toyQA') (by decide +kernel)
    rwa [(prep_equals h tQA_rep).mp toy_same.2.2.2] at h
  have off : ∀ {x y : Pt Toy} {X Y : MPoint toyEA.A}, PRep x X → PM y Y → toyEA.offAxis x y 13 13 = true →
      X ∉ AddSubgroup.zmultiples Y := by
    intro x y X Y hx hy hc
    rcases hy with hy | hy
    · exact off_axis toyEA_good hx hy (by norm_num) hc
    · have := off_axis toyEA_good hx hy (by norm_num) hc
      rwa [AddSubgroup.zmultiples_neg] at this
  obtain ⟨c0, c3, c9, -, -, -⟩ := toy_kani_curves
  obtain ⟨φA1, φA2, _, _, _, hkey, _⟩ := toy_key
  have hb' := isBasis_of_pow_check toyEA'_good hP' hQ' (r := 13) (e := 1) (by norm_num) toy_bases.2.2.1
  obtain ⟨pk, sk, hk, h⟩ := C76_injective_partial toyP toy_card (by norm_num) 20 toyS toy_sound toy_norm toyE0_good rfl
    (by decide +kernel) (by decide +kernel) (by decide +kernel) (by decide +kernel) toy_strategy
    (by refine ⟨⟨?_, ?_⟩, ?_⟩ <;> decide +kernel) (by refine ⟨⟨?_, ?_⟩, ?_⟩ <;> decide +kernel)
    (by decide +kernel) (by decide +kernel) toyDraws1 toyDraws2 (by decide +kernel) (by decide +kernel) (by decide +kernel)
    (by decide +kernel) tPb_rep tQb_rep toy_b toy_half tPd1_rep tQd1_rep toy_b1 ⟨_, _, toy_tb0, p1, q1⟩ toyr11 toyr22 h1 h2
    (hb'.ne_left (by decide +kernel)) (hb'.free (by decide +kernel)) ⟨_, _, toy_tbA', hP', hQ'⟩
    (toy_bA.ne_left (by decide +kernel)) (toy_bA.free (by decide +kernel)) ⟨_, _, toy_tbA, tPA_rep, tQA_rep⟩ ⟨_, _, toy_tbA634, p2, q2⟩ (fun φ c X hX => by
      have vP : PM toyPhiP (φ (toyEA'.pt toyP')) := PM.chain (Or.inl c) (Or.inl hP') (vals hv (by simp))
      have vQ : PM toyPhiQ (φ (toyEA'.pt toyQ')) := PM.chain (Or.inl c) (Or.inl hQ') (vals hv (by simp))
      simp only [List.mem_cons, List.not_mem_nil, or_false] at hX
      rcases hX with rfl | rfl
      · exact ⟨.of_not_mem (off tPA_rep vP toy_axes.1), .of_not_mem (off tPA_rep vQ toy_axes.2.1)⟩
      · exact ⟨.of_not_mem (off tQA_rep vP toy_axes.2.2.1), .of_not_mem (off tQA_rep vQ toy_axes.2.2.2)⟩) c0 c3 c9
  obtain ⟨rfl, rfl⟩ := Prod.mk.inj (Option.some.inj (toy_keygen.symm.trans hk))
  exact (h toyM m toyOut c (by decide +kernel) (by decide +kernel) (by decide +kernel) (by decide +kernel) (by decide +kernel)
    (by decide +kernel) g1 g2 h3 g4 g5 g6 toy_eval he hc (toy_clean hkey.p1)).symm

end Festa
