import Verif.Lemmas.RiemannGlue
import Verif.Lemmas.ThetaLoop
import Verif.Spec.Chain
/-! The Riemann relations along the whole chain: gluing, steps, last two steps. -/
namespace Festa
variable {K : Type*} [Field K]

section
variable [DecidableEq K] {E : EProd K} {P8 Q8 : CPt K} {p1 q1 : MPoint E.E1.A} {p2 q2 : MPoint E.E2.A}
  {e L m w e' L' m' w' : K}

/-- Gluing carries sums and differences over to the Riemann relations. -/
theorem GluePts.riem (h : GluePts E P8 Q8 p1 q1 p2 q2 e L m w e' L' m' w') (hn : ThNull (glueNull E P8 Q8))
    {R R' S D : CPt K} {r1 s1 : MPoint E.E1.A} {r2 s2 : MPoint E.E2.A}
    (hR1 : PRep R.P1 r1) (hR2 : PRep R.P2 r2) (hR1' : PRep R'.P1 s1) (hR2' : PRep R'.P2 s2)
    (hS1 : PRep S.P1 (r1 + s1)) (hS2 : PRep S.P2 (r2 + s2)) (hD1 : PRep D.P1 (r1 - s1)) (hD2 : PRep D.P2 (r2 - s2))
    (x : ¬ GlueExc p1 q1 p2 q2 r1 r2) (x' : ¬ GlueExc p1 q1 p2 q2 s1 s2)
    (xs : ¬ GlueExc p1 q1 p2 q2 (r1 + s1) (r2 + s2)) (xd : ¬ GlueExc p1 q1 p2 q2 (r1 - s1) (r2 - s2)) :
    Riem (glueNull E P8 Q8) (glue E P8 Q8 R) (glue E P8 Q8 R') (glue E P8 Q8 S) (glue E P8 Q8 D) := by
  obtain ⟨l, a⟩ := h.f1.jac r1 s1
  obtain ⟨l', a'⟩ := h.f2.jac r2 s2
  have := riem_gj h.ok (jv_jv (h.f1.onC r1)) (jv_jv (h.f1.onC s1)) (jv_jv (h.f2.onC r2)) (jv_jv (h.f2.onC s2)) a a'
  simp only [← gw_gj] at this
  refine this.had.same ?_ (h.image hn hR1 hR2 x) (h.image hn hR1' hR2' x') (h.image hn hS1 hS2 xs) (h.image hn hD1 hD2 xd)
  rw [h.null hn]
  exact .refl _

/-- No image of gluing is the zero quadruple. -/
theorem GluePts.glue_ne (h : GluePts E P8 Q8 p1 q1 p2 q2 e L m w e' L' m' w') (hn : ThNull (glueNull E P8 Q8))
    {R : CPt K} {r1 : MPoint E.E1.A} {r2 : MPoint E.E2.A} (h1 : PRep R.P1 r1) (h2 : PRep R.P2 r2)
    (x : ¬ GlueExc p1 q1 p2 q2 r1 r2) : glue E P8 Q8 R ≠ ThPt.zero := by
  intro h0
  obtain ⟨c, hc, ez⟩ := h.image hn h1 h2 x
  rw [h0] at ez
  have t2 := h.g1.two
  have ez : gW (gD e L m e' L' m' p1 p2) (gF e L m e' L' m' q1 q2) e L m w e' L' m' w' r1 r2 = ThPt.zero := by
    refine had_eq_zero t2 ?_
    simp only [ThPt.scale, ThPt.zero, ThPt.mk.injEq, zero_eq_mul, hc, false_or] at ez
    obtain ⟨e1, e2, e3, e4⟩ := ez
    ext <;> assumption
  have nD := h.ok.nD
  have nF := h.ok.nF
  simp only [gW, gw, ThPt.zero, ThPt.mk.injEq, div_eq_zero_iff, mul_eq_zero, nD, nF, or_false, four_ne t2, false_or] at ez
  obtain ⟨ea, eb, ec, -⟩ := ez
  have key : ∀ {a b : K}, ¬ (a = 0 ∧ b = 0) → (a ^ 2 + b ^ 2 ≠ 0 ∧ a ^ 2 - b ^ 2 ≠ 0) ∨
      (a ^ 2 + b ^ 2 ≠ 0 ∧ ¬ (a = 0 ∨ b = 0)) ∨ (a ^ 2 - b ^ 2 ≠ 0 ∧ ¬ (a = 0 ∨ b = 0)) := by
    intro a b hab
    by_cases ha : a = 0
    · have hb : b ≠ 0 := fun hb => hab ⟨ha, hb⟩
      left; subst ha
      simp [hb]
    · by_cases hb : b = 0
      · left; subst hb; simp [ha]
      · by_cases hs : a ^ 2 + b ^ 2 = 0
        · refine .inr (.inr ⟨fun hd => ha ?_, by simp [ha, hb]⟩)
          have : 2 * a ^ 2 = 0 := by linear_combination hs + hd
          simpa using (mul_eq_zero.mp this).resolve_left t2
        · exact .inr (.inl ⟨hs, by simp [ha, hb]⟩)
  have k1 := key (h.f1.nz r1)
  have k2 := key (h.f2.nz r2)
  tauto

end

/-- The chain with `r` steps to go is regular in all steps: none of the ten even theta constants of a null
point vanishes, up to the last step no coordinate does, the kernel points are in the position the formulas
need, and the last null point is as described by `F`. -/
def RegChain (F : ThPt K → Prop) : Nat → ThPt K → ThPt K → ThPt K → Prop
  | r + 3, O, K1, K2 =>
    let T1 := (ThStr.new O).doubleIter K1 (r + 2)
    let T2 := (ThStr.new O).doubleIter K2 (r + 2)
    ThNull O ∧ SixNZ O ∧ Kernel8 O T1 T2 ∧
      RegChain F (r + 2) (isoNull O T1 T2) (isoImage O T1 T2 K1) (isoImage O T1 T2 K2)
  | 2, O, K1, K2 =>
    let T1 := (ThStr.new O).double K1
    let T2 := (ThStr.new O).double K2
    let f := isoImage O T1 T2
    let O' := isoNull O T1 T2
    ThNull O ∧ SixNZ O ∧ Kernel8 O T1 T2 ∧ (O'.sqTheta.NZ ∧ SixNZ O') ∧ LastKernel (f K1) (f K2) (f T1) (f T2) ∧
      F (isoNull O' (f K1) (f K2))
  | _, _, _, _ => False

theorem RegChain.ok {F : ThPt K → Prop} : ∀ (r : Nat) {O K1 K2 : ThPt K}, RegChain F r O K1 K2 → ChainOK r O K1 K2
  | 0, _, _, _, _ => trivial
  | 1, _, _, _, _ => trivial
  | 2, _, _, _, h => h.1
  | _ + 3, _, _, _, h => ⟨h.1, h.2.2.1, RegChain.ok _ h.2.2.2⟩

theorem RegChain.null {F : ThPt K → Prop} : ∀ {r : Nat} {O K1 K2 : ThPt K}, RegChain F r O K1 K2 → ThNull O
  | 2, _, _, _, h => h.1
  | _ + 3, _, _, _, h => h.1

/-- What is needed of a map between theta structures. -/
structure ThMap (O O' : ThPt K) (f : ThPt K → ThPt K) : Prop where
  null : O'.Same (f O)
  same : ∀ {X Y : ThPt K}, X.Same Y → (f X).Same (f Y)
  nz : ∀ {X : ThPt K}, X ≠ ThPt.zero → f X ≠ ThPt.zero
  riem : ∀ {X Y S D : ThPt K}, HasDbl O X → HasDbl O Y → Riem O X Y S D → Riem O' (f X) (f Y) (f S) (f D)

theorem had_had_same (h2 : (2 : K) ≠ 0) (X : ThPt K) : X.Same X.had.had :=
  ⟨4, four_ne h2, had_had X⟩

theorem Riem.of_had (h2 : (2 : K) ≠ 0) {O X Y S D : ThPt K} (h : Riem O.had X.had Y.had S.had D.had) : Riem O X Y S D :=
  h.had.same (had_had_same h2 O).symm (had_had_same h2 X).symm (had_had_same h2 Y).symm (had_had_same h2 S).symm
    (had_had_same h2 D).symm

theorem same_of_had (h2 : (2 : K) ≠ 0) {X Y : ThPt K} (h : X.had.Same Y.had) : X.Same Y :=
  ((had_had_same h2 X).trans (had_same h)).trans (had_had_same h2 Y).symm

/-- An ordinary step. -/
theorem ThMap.step (h2 : (2 : K) ≠ 0) {O T1 T2 : ThPt K} (hO : O.sqTheta.NZ) (h6 : SixNZ O) (hk : KerDual O T1 T2)
    {O' : ThPt K} {f : ThPt K → ThPt K} (h : ThMap (isoNull O T1 T2) O' f) :
    ThMap O O' fun X => f (Festa.isoImage O T1 T2 X) where
  null := h.null.trans (h.same (isoImage_null' hO hk))
  same hXY := h.same (isoImage_same hXY)
  nz hX := h.nz (isoImage_ne_zero' h2 hO hk hX)
  riem hX hY hr := h.riem (hX.isoImage h2 hO h6 hk) (hY.isoImage h2 hO h6 hk) (hr.isoImage h2 hO h6 hk hX hY)

/-- The quadruple with signs changed in the second and fourth place, or in the last two. -/
def ThPt.flip (b : Bool) (O : ThPt K) : ThPt K :=
  if b then ⟨O.X, -O.Y, O.Z, -O.T⟩ else ⟨O.X, O.Y, -O.Z, -O.T⟩

theorem flip_sq (b : Bool) (O : ThPt K) : (O.flip b).sqTheta = O.sqTheta := by
  cases b <;> simp [ThPt.flip, ThPt.sqTheta, ThPt.had]

/-- Not more than one coordinate of the null point vanishes. -/
theorem SixNZ.coords {O : ThPt K} (h : SixNZ O) : (O.X = 0 → O.Y ≠ 0 ∧ O.Z ≠ 0 ∧ O.T ≠ 0) ∧
    (O.Y ≠ 0 ∨ O.T ≠ 0) ∧ (O.Z ≠ 0 ∨ O.T ≠ 0) := by
  obtain ⟨n4, n5, n6, n7, n8, n9⟩ := h
  simp only [wf] at *
  refine ⟨fun e => ⟨fun e' => n7 ?_, fun e' => n5 ?_, fun e' => n4 ?_⟩, ?_, ?_⟩
  · rw [e, e']; ring
  · rw [e, e']; ring
  · rw [e, e']; ring
  · by_contra hh
    simp only [not_or, not_not] at hh
    exact n4 (by rw [hh.1, hh.2]; ring)
  · by_contra hh
    simp only [not_or, not_not] at hh
    exact n6 (by rw [hh.1, hh.2]; ring)

/-- The double of a point `(x : 0 : z : 0)`. -/
theorem double_xz (h2 : (2 : K) ≠ 0) {O V W : ThPt K} (h6 : SixNZ O) (hr : Riem O V V W O) (hy : V.Y = 0)
    (ht : V.T = 0) (hw : W ≠ ThPt.zero) : (O.flip true).Same W := by
  obtain ⟨c, -, h⟩ := hr
  obtain ⟨k1, k2, -⟩ := h6.coords
  obtain ⟨n4, n5, -, -, n8, n9⟩ := h6
  have z : ∀ j, wf j O O ≠ 0 → wf j V V = 0 → wf j W O = 0 := fun j hj e =>
    (mul_eq_zero.mp ((h j).trans (by rw [e]; ring))).resolve_right hj
  have z4 := z 4 n4 (by simp only [wf, hy, ht]; ring)
  have z5 := z 5 n5 (by simp only [wf, hy, ht]; ring)
  have z8 := z 8 n8 (by simp only [wf, hy, ht]; ring)
  have z9 := z 9 n9 (by simp only [wf, hy, ht]; ring)
  simp only [wf] at z4 z5 z8 z9
  have y : W.Y * O.X = -(W.X * O.Y) := mul_left_cancel₀ h2 (by linear_combination z4 + z5)
  have t : W.T * O.X = -(W.X * O.T) := mul_left_cancel₀ h2 (by linear_combination z8 + z9)
  have u : W.Z * O.T = -(W.T * O.Z) := mul_left_cancel₀ h2 (by linear_combination z4 - z5)
  have v : W.Z * O.Y = -(W.Y * O.Z) := mul_left_cancel₀ h2 (by linear_combination z8 - z9)
  obtain ⟨l, hl⟩ : ∃ l, W = (O.flip true).scale l := by
    by_cases a0 : O.X = 0
    · obtain ⟨b0, c0, d0⟩ := k1 a0
      refine ⟨W.Z / O.Z, ?_⟩
      ext <;> simp only [ThPt.flip, ThPt.scale, if_true]
      · rw [a0, mul_zero] at y ⊢
        exact (mul_eq_zero.mp (neg_eq_zero.mp y.symm)).resolve_right b0
      · rw [div_mul_eq_mul_div, eq_div_iff c0]; linear_combination v
      · rw [div_mul_cancel₀ _ c0]
      · rw [div_mul_eq_mul_div, eq_div_iff c0]; linear_combination u
    · refine ⟨W.X / O.X, ?_⟩
      ext <;> simp only [ThPt.flip, ThPt.scale, if_true]
      · rw [div_mul_cancel₀ _ a0]
      · rw [div_mul_eq_mul_div, eq_div_iff a0, y]; ring
      · rw [div_mul_eq_mul_div, eq_div_iff a0]
        rcases k2 with b0 | d0
        · exact mul_right_cancel₀ b0 (by linear_combination O.X * v - O.Z * y)
        · exact mul_right_cancel₀ d0 (by linear_combination O.X * u - O.Z * t)
      · rw [div_mul_eq_mul_div, eq_div_iff a0, t]; ring
  refine ⟨l, fun h0 => hw ?_, hl⟩
  rw [hl, h0]; simp [ThPt.scale, ThPt.zero]

/-- The double of a point `(x : y : 0 : 0)`. -/
theorem double_xy (h2 : (2 : K) ≠ 0) {O V W : ThPt K} (h6 : SixNZ O) (hr : Riem O V V W O) (hz : V.Z = 0)
    (ht : V.T = 0) (hw : W ≠ ThPt.zero) : (O.flip false).Same W := by
  obtain ⟨c, -, h⟩ := hr
  obtain ⟨k1, -, k2⟩ := h6.coords
  obtain ⟨-, -, n6, n7, n8, n9⟩ := h6
  have z : ∀ j, wf j O O ≠ 0 → wf j V V = 0 → wf j W O = 0 := fun j hj e =>
    (mul_eq_zero.mp ((h j).trans (by rw [e]; ring))).resolve_right hj
  have z6 := z 6 n6 (by simp only [wf, hz, ht]; ring)
  have z7 := z 7 n7 (by simp only [wf, hz, ht]; ring)
  have z8 := z 8 n8 (by simp only [wf, hz, ht]; ring)
  have z9 := z 9 n9 (by simp only [wf, hz, ht]; ring)
  simp only [wf] at z6 z7 z8 z9
  have zz : W.Z * O.X = -(W.X * O.Z) := mul_left_cancel₀ h2 (by linear_combination z6 + z7)
  have t : W.T * O.X = -(W.X * O.T) := mul_left_cancel₀ h2 (by linear_combination z8 + z9)
  have u : W.Y * O.T = -(W.T * O.Y) := mul_left_cancel₀ h2 (by linear_combination z6 - z7)
  have v : W.Y * O.Z = -(W.Z * O.Y) := mul_left_cancel₀ h2 (by linear_combination z8 - z9)
  obtain ⟨l, hl⟩ : ∃ l, W = (O.flip false).scale l := by
    by_cases a0 : O.X = 0
    · obtain ⟨b0, c0, d0⟩ := k1 a0
      refine ⟨W.Y / O.Y, ?_⟩
      ext <;> simp only [ThPt.flip, ThPt.scale, Bool.false_eq_true, if_false]
      · rw [a0, mul_zero] at zz ⊢
        exact (mul_eq_zero.mp (neg_eq_zero.mp zz.symm)).resolve_right c0
      · rw [div_mul_cancel₀ _ b0]
      · rw [div_mul_eq_mul_div, eq_div_iff b0]; linear_combination v
      · rw [div_mul_eq_mul_div, eq_div_iff b0]; linear_combination u
    · refine ⟨W.X / O.X, ?_⟩
      ext <;> simp only [ThPt.flip, ThPt.scale, Bool.false_eq_true, if_false]
      · rw [div_mul_cancel₀ _ a0]
      · rw [div_mul_eq_mul_div, eq_div_iff a0]
        rcases k2 with c0 | d0
        · exact mul_right_cancel₀ c0 (by linear_combination O.X * v - O.Y * zz)
        · exact mul_right_cancel₀ d0 (by linear_combination O.X * u - O.Y * t)
      · rw [div_mul_eq_mul_div, eq_div_iff a0, zz]; ring
      · rw [div_mul_eq_mul_div, eq_div_iff a0, t]; ring
  refine ⟨l, fun h0 => hw ?_, hl⟩
  rw [hl, h0]; simp [ThPt.scale, ThPt.zero]

/-- Kernel points and their doubles give a codomain dual to the null point. -/
theorem LastKernel.dual (h2 : (2 : K) ≠ 0) {O T1 T2 D1 D2 : ThPt K} (hO : O.sqTheta.NZ) (r1 : Riem O T1 T1 D1 O)
    (r2 : Riem O T2 T2 D2 O) (h : LastKernel T1 T2 D1 D2) : KerDual O T1 T2 := by
  obtain ⟨c, hc, e⟩ := r1
  obtain ⟨d, hd, e'⟩ := r2
  have o0 := hO.X; have o1 := hO.Y; have o2 := hO.Z; have o3 := hO.T
  obtain ⟨y1, t1, z2, t2, n1, n2, n3⟩ := h
  have s1 := sqTheta_wf T1
  have s2 := sqTheta_wf T2
  have s := sqTheta_wf O
  rw [s] at o0 o1 o2 o3
  simp only at o0 o1 o2 o3
  have f : ∀ {c w k g w' k' g' : K}, c ≠ 0 → w = w' → w * k = c * (g * g) → w' * k' = c * (g' * g') →
      g * g * k' = g' * g' * k := by
    intro c w k g w' k' g' hc hw a b
    exact mul_left_cancel₀ hc (by rw [← hw] at b; linear_combination k * b - k' * a)
  have a1 : wf 0 T1 T1 * wf 0 T1 T1 * wf 1 O O = wf 1 T1 T1 * wf 1 T1 T1 * wf 0 O O :=
    f hc (by simp only [wf, y1, t1]; ring) (e 0) (e 1)
  have b1 : wf 0 T2 T2 * wf 0 T2 T2 * wf 2 O O = wf 2 T2 T2 * wf 2 T2 T2 * wf 0 O O :=
    f hd (by simp only [wf, z2, t2]; ring) (e' 0) (e' 2)
  have b2 : wf 1 T2 T2 * wf 1 T2 T2 * wf 3 O O = wf 3 T2 T2 * wf 3 T2 T2 * wf 1 O O :=
    f hd (by simp only [wf, z2, t2]; ring) (e' 1) (e' 3)
  rw [s1] at n1
  rw [s2] at n2 n3
  simp only at n1 n2 n3
  refine ⟨inv_ne_zero hO.X, ?_, ?_, ?_, ?_⟩ <;> simp only [twoIsoCoeffs, ThStr.new, s1, s2, s]
  · field_simp
  · field_simp; linear_combination -a1
  · field_simp; linear_combination -b1
  · field_simp
    apply mul_left_cancel₀ o1
    linear_combination -(wf 1 T1 T1 ^ 2 * wf 0 O O) * b2 - (wf 1 T2 T2 ^ 2 * wf 3 O O) * a1

/-- A step sends four times its kernel points to the null point: `V` is twice, `W` four times a kernel point. -/
theorem isoImage_quad (h2 : (2 : K) ≠ 0) {O T1 T2 V W : ThPt K} (hO : O.sqTheta.NZ) (h6 : SixNZ O) (hk : KerDual O T1 T2)
    (hr : Riem O V V W O) (hw : W ≠ ThPt.zero) (hv : (V.Y = 0 ∧ V.T = 0) ∨ (V.Z = 0 ∧ V.T = 0)) :
    (isoNull O T1 T2).Same (isoImage O T1 T2 W) := by
  have key : ∀ b, isoImage O T1 T2 (O.flip b) = isoImage O T1 T2 O := by
    intro b
    rw [isoImage_eq' hO hk, isoImage_eq' hO hk, flip_sq]
  rcases hv with ⟨hy, ht⟩ | ⟨hz, ht⟩
  · exact (isoImage_null' hO hk).trans (by rw [← key true]; exact isoImage_same (double_xz h2 h6 hr hy ht hw))
  · exact (isoImage_null' hO hk).trans (by rw [← key false]; exact isoImage_same (double_xy h2 h6 hr hz ht hw))

end Festa
