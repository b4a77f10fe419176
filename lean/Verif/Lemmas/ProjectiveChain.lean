import Verif.Lemmas.Projective
import Verif.Lemmas.AxisFree
import Verif.Spec.Run
/-! The conditions on a run of `trapdoor_inverse` depend on the projective classes of the points only. -/
namespace Festa

section
variable {K : Type*} [Field K]

theorem isoNull_same (O : ThPt K) {T1 T2 T1' T2' : ThPt K} (h1 : T1.Same T1') (h2 : T2.Same T2') :
    isoNull O T1' T2' = isoNull O T1 T2 ∧ isoImage O T1' T2' = isoImage O T1 T2 := by
  have := coeffs_same (ThStr.new O) h1 h2
  constructor
  · simp only [isoNull, this]
  · funext P; simp only [isoImage, this]

theorem Kernel8.same {O T1 T2 T1' T2' : ThPt K} (h1 : T1.Same T1') (h2 : T2.Same T2') (h : Kernel8 O T1 T2) :
    Kernel8 O T1' T2' := by
  obtain ⟨c, hc, rfl⟩ := h1
  obtain ⟨d, hd, rfl⟩ := h2
  obtain ⟨a1, a2, a3, a4, a5, a6, a7⟩ := h
  refine ⟨?_, ?_, ?_, ?_, ?_, ?_, ?_⟩
  all_goals first | rw [double_scale] | rw [sqTheta_scale]
  all_goals simp [ThPt.scale, *]

theorem Aligned.same {D1 D2 D1' D2' : ThPt K} (h3 : D1.Same D1') (h4 : D2.Same D2') (h : Aligned D1 D2) : Aligned D1' D2' := by
  obtain ⟨a, ha, rfl⟩ := h3
  obtain ⟨b, hb, rfl⟩ := h4
  obtain ⟨a1, a2, a3, a4⟩ := h
  refine ⟨?_, ?_, ?_, ?_⟩ <;> simp [ThPt.scale, *]

theorem jacChain_same : ∀ (r : Nat) (O : ThPt K) {K1 K2 K1' K2' : ThPt K}, K1.Same K1' → K2.Same K2' →
    JacChain r O K1 K2 → JacChain r O K1' K2'
  | r + 3, O, K1, K2, K1', K2', h1, h2, h => by
    obtain ⟨a, b, c, d⟩ := h
    have e1 := doubleIter_same (ThStr.new O) h1 (r + 2)
    have e2 := doubleIter_same (ThStr.new O) h2 (r + 2)
    obtain ⟨f1, f2⟩ := isoNull_same O e1 e2
    refine ⟨a, b, c.same (double_same _ e1) (double_same _ e2), ?_⟩
    rw [f1, f2]
    exact jacChain_same (r + 2) _ (isoImage_same h1) (isoImage_same h2) d
  | 2, O, K1, K2, K1', K2', h1, h2, h => by
    obtain ⟨a, b, c, d, e⟩ := h
    have e1 := double_same (ThStr.new O) h1
    have e2 := double_same (ThStr.new O) h2
    obtain ⟨f1, f2⟩ := isoNull_same O e1 e2
    refine ⟨a, b, c.same (double_same _ e1) (double_same _ e2), ?_⟩
    rw [f1, f2]
    exact ⟨d, e.same (isoImage_same e1) (isoImage_same e2)⟩
  | 1, _, _, _, _, _, _, _, h => h
  | 0, _, _, _, _, _, _, _, h => h

/-! ### Points -/

theorem Pt.Same.symm {P Q : Pt K} (h : P.Same Q) : Q.Same P := by
  obtain ⟨c, hc, rfl⟩ := h
  refine ⟨c⁻¹, inv_ne_zero hc, ?_⟩
  simp [← mul_assoc, inv_mul_cancel₀ hc]

theorem CPt.Same.symm {P Q : CPt K} (h : P.Same Q) : Q.Same P := ⟨h.1.symm, h.2.symm⟩

theorem Pt.Same.prep {A : K} {P Q : Pt K} (h : P.Same Q) {X : MPoint A} (hX : PRep P X) : PRep Q X := by
  obtain ⟨c, hc, rfl⟩ := h
  rcases X with _ | ⟨x, y, hq⟩
  · have h0 : P.Z = 0 := hX
    show c * P.Z = 0
    rw [h0, mul_zero]
  · obtain ⟨h1, h2, h3⟩ := hX
    refine ⟨mul_ne_zero hc h1, ?_, ?_⟩
    · show c * P.X = x * (c * P.Z)
      rw [h2]; ring
    · show c * P.Y = y * (c * P.Z)
      rw [h3]; ring

theorem same_of_prep {A : K} {P Q : Pt K} {X : MPoint A} (h0 : X ≠ 0) (h : PRep P X) (h' : PRep Q X) : P.Same Q := by
  rcases X with _ | ⟨x, y, hq⟩
  · exact absurd rfl h0
  · obtain ⟨h1, h2, h3⟩ := h
    obtain ⟨h1', h2', h3'⟩ := h'
    refine ⟨Q.Z / P.Z, div_ne_zero h1' h1, ?_⟩
    obtain ⟨X, Y, Z⟩ := P
    obtain ⟨X', Y', Z'⟩ := Q
    simp only at *
    subst h2 h3 h2' h3'
    simp only [Pt.mk.injEq]
    exact ⟨by field_simp, by field_simp, by field_simp⟩

theorem Pt.SameX.prep [DecidableEq K] {A : K} {P Q : Pt K} (h : P.SameX Q) {X : MPoint A} (hX : PRep P X) : PRep Q X ∨ PRep Q (-X) := by
  rcases h with ⟨h, h'⟩ | h | h
  · left
    rcases X with _ | ⟨x, y, hq⟩
    · exact h'
    · exact absurd h hX.1
  · exact .inl (h.prep hX)
  · right
    have := prep_neg (h.prep hX)
    simpa [Pt.neg] using this

theorem CrvIso.eval_sameX [DecidableEq K] (f : CrvIso K) {P Q : Pt K} (h : P.SameX Q) : (f.eval P).SameX (f.eval Q) := by
  have key : ∀ {P Q : Pt K}, P.Same Q → Q.toXY = P.toXY := by
    rintro P _ ⟨c, hc, rfl⟩
    simp only [Pt.toXY, ← div_eq_mul_inv, mul_div_mul_left _ _ hc]
  rcases h with ⟨h, h'⟩ | h | h
  · right; left
    have : f.eval P = f.eval Q := by simp [CrvIso.eval, Pt.toXY, h, h']
    rw [this]
    exact Pt.Same.refl _
  · right; left
    rw [CrvIso.eval, CrvIso.eval, key h]
    exact Pt.Same.refl _
  · right; right
    have := key h
    simp only [Pt.toXY, Prod.mk.injEq] at this
    refine ⟨1, one_ne_zero, ?_⟩
    simp only [CrvIso.eval, Pt.newXY, Pt.toXY, Pt.mk.injEq, one_mul, and_true, ← this.1, true_and, ← this.2]
    ring

end

section
variable {K : Type} [Field K] [DecidableEq K] [RootOps K]

theorem chooseFactor_projective (chk : Bool) (EA' : Crv K) (E34 : EProd K) {I1 I2 I1' I2' : CPt K}
    (h1 : I1.SameX I1') (h2 : I2.SameX I2') {l1 l2 : Pt K} (h : chooseFactor chk EA' E34 I1 I2 = some (l1, l2)) :
    ∃ l1' l2', chooseFactor chk EA' E34 I1' I2' = some (l1', l2') ∧ l1.SameX l1' ∧ l2.SameX l2' := by
  simp only [chooseFactor] at h ⊢
  split_ifs at h ⊢ <;> (simp only [Option.some.injEq, Prod.mk.injEq] at h ⊢; obtain ⟨rfl, rfl⟩ := h) <;>
    first
    | exact ⟨_, _, ⟨rfl, rfl⟩, h1.1, h2.1⟩
    | exact ⟨_, _, ⟨rfl, rfl⟩, h1.2, h2.2⟩
    | exact ⟨_, _, ⟨rfl, rfl⟩, CrvIso.eval_sameX _ h1.1, CrvIso.eval_sameX _ h2.1⟩
    | exact ⟨_, _, ⟨rfl, rfl⟩, CrvIso.eval_sameX _ h1.2, CrvIso.eval_sameX _ h2.2⟩

theorem CleanOut.same {chk : Bool} {fuel : Nat} {S : Crypto K} {sk : SecretKey K} {c : TrapdoorOutput K}
    (h : S.CleanOut chk fuel sk c) {R1 S1 R2 S2 P1 Q1 P2 Q2 : Pt K} (hR1 : c.R1.Same R1) (hS1 : c.S1.Same S1)
    (hP1 : sk.P1.Same P1) (hP2 : sk.P2.Same P2)
    (hg : ∀ P' Q', S.glueGens ⟨c.E1, R1, S1, c.E2, R2, S2⟩ ⟨sk.EA', P1, Q1, P2, Q2, sk.a11, sk.a22⟩ = some (P', Q') →
      ∃ P Q, S.glueGens c sk = some (P, Q) ∧ P.Same P' ∧ Q.Same Q') :
    S.CleanOut chk fuel ⟨sk.EA', P1, Q1, P2, Q2, sk.a11, sk.a22⟩ ⟨c.E1, R1, S1, c.E2, R2, S2⟩ := by
  refine ⟨h.basis1, h.basis2, ?_, ?_⟩
  · intro P' Q' e
    obtain ⟨P, Q, e, sP, sQ⟩ := hg _ _ e
    obtain ⟨O, T1, T2, e, hc⟩ := h.chain _ _ e
    have := gluing_projective ⟨c.E1, c.E2⟩ (EProd.doubleIter_projective ⟨c.E1, c.E2⟩ sP (S.c.thetaLen - 1))
      (EProd.doubleIter_projective ⟨c.E1, c.E2⟩ sQ (S.c.thetaLen - 1)) (.cons sP (.cons sQ .nil))
    rw [e] at this
    obtain ⟨t1, t2⟩ := this
    obtain ⟨T1', T2', e', i1, i2⟩ : ∃ T1' T2', (gluingIsogeny ⟨c.E1, c.E2⟩ (EProd.doubleIter ⟨c.E1, c.E2⟩ P' (S.c.thetaLen - 1))
        (EProd.doubleIter ⟨c.E1, c.E2⟩ Q' (S.c.thetaLen - 1)) [P', Q']).2 = [T1', T2'] ∧ T1.Same T1' ∧ T2.Same T2' := by
      generalize (gluingIsogeny ⟨c.E1, c.E2⟩ (EProd.doubleIter ⟨c.E1, c.E2⟩ P' (S.c.thetaLen - 1))
        (EProd.doubleIter ⟨c.E1, c.E2⟩ Q' (S.c.thetaLen - 1)) [P', Q']).2 = pts at t2
      rcases t2 with _ | ⟨a, _ | ⟨b, ⟨⟩⟩⟩
      exact ⟨_, _, rfl, a, b⟩
    exact ⟨O, T1', T2', Prod.ext t1 e', jacChain_same _ _ i1 i2 hc⟩
  · intro P' Q' x1 y1 x2 y2 E34 I1' I2' l1' l2' e t1 t2 hp hch L hL
    obtain ⟨P, Q, e, sP, sQ⟩ := hg _ _ e
    have s1 : CPt.Same ⟨c.E1.add x1 R1, x2⟩ ⟨c.E1.add x1 c.R1, x2⟩ := ⟨c.E1.add_projective (.refl _) hR1.symm, .refl _⟩
    have s2 : CPt.Same ⟨c.E1.add y1 S1, y2⟩ ⟨c.E1.add y1 c.S1, y2⟩ := ⟨c.E1.add_projective (.refl _) hS1.symm, .refl _⟩
    obtain ⟨out, hp', ho⟩ := productIsogeny_projective _ _ _ sP.symm sQ.symm (.cons s1 (.cons s2 .nil)) hp
    obtain ⟨I1, I2, rfl, i1, i2⟩ : ∃ I1 I2, out = [I1, I2] ∧ I1'.SameX I1 ∧ I2'.SameX I2 := by
      rcases ho with _ | ⟨a, _ | ⟨b, ⟨⟩⟩⟩
      exact ⟨_, _, rfl, a, b⟩
    obtain ⟨l1, l2, hch, j1, j2⟩ := chooseFactor_projective chk _ _ i1 i2 hch
    have all : ∀ L : MPoint sk.EA'.A, (PRep l1 L ∨ PRep l2 L) ∨ (PRep l1 (-L) ∨ PRep l2 (-L)) →
      (∀ X, PRep P1 X → AxisFree S.d1 (S.l • X) (S.d2 • (S.l • L))) ∧
      (∀ X, PRep P2 X → AxisFree S.d2 X (S.d1 • (S.l • L))) ∧
      ChainFree S.d1 (S.d2 • (S.l • L)) ∧ ChainFree S.d2 (S.d1 • (S.l • L)) := by
      rintro L (hL | hL)
      · obtain ⟨a1, a2, a3, a4⟩ := h.points _ _ _ _ _ _ _ _ _ _ _ e t1 t2 hp' hch L hL
        exact ⟨fun X hX => a1 X (hP1.symm.prep hX), fun X hX => a2 X (hP2.symm.prep hX), a3, a4⟩
      · obtain ⟨a1, a2, a3, a4⟩ := h.points _ _ _ _ _ _ _ _ _ _ _ e t1 t2 hp' hch _ hL
        simp only [smul_neg] at a1 a2
        refine ⟨fun X hX => (a1 X (hP1.symm.prep hX)).neg_right, fun X hX => (a2 X (hP2.symm.prep hX)).neg_right, ?_, ?_⟩
        · intro k hk hd; have := a3 k hk hd; simpa [smul_neg] using this
        · intro k hk hd; have := a4 k hk hd; simpa [smul_neg] using this
    refine all L ?_
    rcases hL with hL | hL
    · rcases j1.prep hL with h | h
      · exact .inl (.inl h)
      · exact .inr (.inl h)
    · rcases j2.prep hL with h | h
      · exact .inl (.inr h)
      · exact .inr (.inr h)

end
end Festa
