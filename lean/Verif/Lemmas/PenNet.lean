import Verif.Lemmas.ThetaKill
import Verif.Lemmas.JacChain
/-! The surface before the last step of a chain: which points of order two fix the position of a point of order four, and how
this is carried along the chain. -/
namespace Festa
open WeierstrassCurve.Affine Polynomial Filter

section
variable {L : Type*} [Field L]

/-- The signs of a point of order two agree in the places `0` and `i`. -/
def Keeps (i : Fin 10) (O X : ThPt L) : Prop := ∃ e, Signs O X e ∧ e 0 = e i

theorem Signs.same {O X Y : ThPt L} {e : Fin 10 → Bool} (h : Signs O X e) (hs : X.Same Y) : Signs O Y e := by
  obtain ⟨k, hk, h⟩ := h
  obtain ⟨s, hs, rfl⟩ := hs
  exact ⟨s ^ 2 * k, mul_ne_zero (pow_ne_zero 2 hs) hk, fun j => by rw [wf_scale_both, h]; ring⟩

theorem Keeps.same {i : Fin 10} {O X Y : ThPt L} (h : Keeps i O X) (hs : X.Same Y) : Keeps i O Y :=
  ⟨h.choose, h.choose_spec.1.same hs, h.choose_spec.2⟩

theorem thSg_inj (h2 : (2 : L) ≠ 0) {a b : Bool} (h : (thSg a : L) = thSg b) : a = b := by
  cases a <;> cases b <;> simp only [thSg, Bool.false_eq_true, if_true, if_false] at h <;> first | rfl | skip
  · exact (h2 (by linear_combination h)).elim
  · exact (h2 (by linear_combination -h)).elim

/-- Signs from the values of two forms. -/
theorem Signs.keeps (h2 : (2 : L) ≠ 0) {i : Fin 10} {O X : ThPt L} {e : Fin 10 → Bool} (hO : ∀ j, wf j O O ≠ 0) (h : Signs O X e) {c : L}
    (h0 : wf 0 X X = c * wf 0 O O) (hi : wf i X X = c * wf i O O) : Keeps i O X := by
  refine ⟨e, h, ?_⟩
  obtain ⟨k, hk, h⟩ := h
  have key : ∀ j, wf j X X = c * wf j O O → thSg (e j) = c / k := fun j hj => by
    rw [eq_div_iff hk]
    refine mul_right_cancel₀ (hO j) ?_
    rw [← hj, h j]; ring
  exact thSg_inj h2 ((key 0 h0).trans (key i hi).symm)

variable {G : Type*} [AddCommGroup G] {O : ThPt L} {θ : G → ThPt L}

namespace SurfNet

theorem signs_null (h : SurfNet O θ) (h2 : (2 : L) ≠ 0) {W : G} {e : Fin 10 → Bool} (hW : Signs O (θ W) e) : O.Same (θ (2 • W)) := by
  have hr := h.riem W W
  rw [sub_self, ← two_nsmul] at hr
  obtain ⟨c, hc, r⟩ := hr.same (.refl _) (.refl _) (.refl _) (.refl _) h.zero.symm
  obtain ⟨k, hk, hW⟩ := hW
  refine same_of_wf_square h2 (D := O) (l := c * k ^ 2) (mul_ne_zero hc (pow_ne_zero 2 hk)) ?_ fun j => ?_
  · rintro rfl
    exact h.ten 0 (by simp [wf, ThPt.zero])
  · refine mul_right_cancel₀ (h.ten j) ?_
    rw [r j, hW j]
    have : (thSg (e j) * thSg (e j) : L) = 1 := by rw [thSg_mul]; simp [thSg]
    linear_combination (c * k ^ 2 * wf j O O * wf j O O) * this

theorem keeps_zero (h : SurfNet O θ) (i : Fin 10) : Keeps i O (θ 0) := by
  obtain ⟨c, hc, e⟩ := h.zero
  exact ⟨fun _ => false, ⟨c ^ 2, pow_ne_zero 2 hc, fun j => by rw [e, wf_scale_both]; simp [thSg]⟩, rfl⟩

theorem keeps_add (h : SurfNet O θ) (h2 : (2 : L) ≠ 0) {i : Fin 10} {V W : G} (hV : Keeps i O (θ V)) (hW : Keeps i O (θ W)) :
    Keeps i O (θ (V + W)) := by
  obtain ⟨e, he, e0⟩ := hV
  obtain ⟨e', he', e0'⟩ := hW
  refine ⟨_, he.add h.ten he' (h.riem V W) ?_, by simp only [e0, e0']⟩
  have := (h.add_null h2 (V - W) (h.signs_null h2 he')).symm
  rwa [two_nsmul, show V - W + (W + W) = V + W by abel] at this

theorem keeps_neg (h : SurfNet O θ) (h2 : (2 : L) ≠ 0) {i : Fin 10} {W : G} (hW : Keeps i O (θ W)) : Keeps i O (θ (-W)) := by
  obtain ⟨e, he, e0⟩ := hW
  refine ⟨e, he.same ?_, e0⟩
  have := (h.add_null h2 (-W) (h.signs_null h2 he)).symm
  rwa [two_nsmul, show -W + (W + W) = W by abel] at this

/-- The points of order two that keep the position. -/
def keepers (h : SurfNet O θ) (h2 : (2 : L) ≠ 0) (i : Fin 10) : AddSubgroup G :=
  ⟨⟨⟨{W | Keeps i O (θ W)}, h.keeps_add h2⟩, h.keeps_zero i⟩, h.keeps_neg h2⟩

theorem wf_add (h : SurfNet O θ) (h2 : (2 : L) ≠ 0) {W : G} {e : Fin 10 → Bool} (hW : Signs O (θ W) e) (z : G) :
    ∃ c : L, ∀ j, wf j (θ (z + W)) (θ (z + W)) = c * (thSg (e j) * wf j (θ z) (θ z)) := by
  have hs := h.add_null h2 (z - W) (h.signs_null h2 hW)
  rw [two_nsmul, show z - W + (W + W) = z + W by abel] at hs
  obtain ⟨c, hc, r⟩ := (h.riem z W).same (.refl _) (.refl _) (.refl _) (.refl _) hs
  obtain ⟨k, hk, hW⟩ := hW
  refine ⟨c * k, fun j => mul_right_cancel₀ (h.ten j) ?_⟩
  rw [r j, hW j]
  ring

theorem shape_xz (h : SurfNet O θ) (h2 : (2 : L) ≠ 0) {z W : G} (hy : (θ z).Y = 0) (ht : (θ z).T = 0) (hW : Keeps 1 O (θ W)) :
    (θ (z + W)).Y = 0 ∧ (θ (z + W)).T = 0 := by
  obtain ⟨e, he, e0⟩ := hW
  obtain ⟨a1, -⟩ := he.ok h2 h.ten
  have e1 : e 2 = e 3 := by
    rw [e0] at a1
    revert a1; generalize e 1 = x, e 2 = y, e 3 = z; revert x y z; decide
  obtain ⟨c, hc⟩ := h.wf_add h2 he z
  have w0 := hc 0
  have w1 := hc 1
  have w2 := hc 2
  have w3 := hc 3
  rw [e0] at w0
  rw [e1] at w2
  simp only [wf, hy, ht] at w0 w1 w2 w3
  have f4 := four_ne h2
  have sq : ∀ {x : L}, 4 * (x * x) = 0 → x = 0 := fun h => mul_self_eq_zero.mp ((mul_eq_zero.mp h).resolve_left f4)
  exact ⟨sq (by linear_combination w0 - w1 + w2 - w3), sq (by linear_combination w0 - w1 - w2 + w3)⟩

theorem shape_xy (h : SurfNet O θ) (h2 : (2 : L) ≠ 0) {z W : G} (hz : (θ z).Z = 0) (ht : (θ z).T = 0) (hW : Keeps 2 O (θ W)) :
    (θ (z + W)).Z = 0 ∧ (θ (z + W)).T = 0 := by
  obtain ⟨e, he, e0⟩ := hW
  obtain ⟨a1, -⟩ := he.ok h2 h.ten
  have e1 : e 1 = e 3 := by
    rw [e0] at a1
    revert a1; generalize e 1 = x, e 2 = y, e 3 = z; revert x y z; decide
  obtain ⟨c, hc⟩ := h.wf_add h2 he z
  have w0 := hc 0
  have w1 := hc 1
  have w2 := hc 2
  have w3 := hc 3
  rw [e0] at w0
  rw [e1] at w1
  simp only [wf, hz, ht] at w0 w1 w2 w3
  have f4 := four_ne h2
  have sq : ∀ {x : L}, 4 * (x * x) = 0 → x = 0 := fun h => mul_self_eq_zero.mp ((mul_eq_zero.mp h).resolve_left f4)
  exact ⟨sq (by linear_combination w0 - w2 + w1 - w3), sq (by linear_combination w0 - w2 - w1 + w3)⟩

theorem six (h : SurfNet O θ) : SixNZ O := ⟨h.ten 4, h.ten 5, h.ten 6, h.ten 7, h.ten 8, h.ten 9⟩

theorem dbl (h : SurfNet O θ) (x : G) : Riem O (θ x) (θ x) (θ (2 • x)) O := by
  have hr := h.riem x x
  rw [sub_self, ← two_nsmul] at hr
  exact hr.same (.refl _) (.refl _) (.refl _) (.refl _) h.zero.symm

theorem knet (h : SurfNet O θ) : KNet O (fun _ => True) θ :=
  ⟨fun _ => h.ne _, h.zero, fun {x} _ => HasDbl.of_riem (h.dbl x), fun _ _ _ _ => h.riem _ _⟩

/-- The doubles of points in position. -/
theorem keeps_dbl_xz (h : SurfNet O θ) (h2 : (2 : L) ≠ 0) {z : G} (hy : (θ z).Y = 0) (ht : (θ z).T = 0) :
    Keeps 1 O (θ (2 • z)) ∧ Keeps 2 O (θ (2 • z)) := by
  obtain ⟨c, hc, e⟩ := double_xz h2 h.six (h.dbl z) hy ht (h.ne _)
  have : Signs O (θ (2 • z)) (fun j => decide (j = 4 ∨ j = 5 ∨ j = 8 ∨ j = 9)) := by
    refine ⟨c ^ 2, pow_ne_zero 2 hc, fun j => ?_⟩
    rw [e, wf_scale_both]
    congr 1
    fin_cases j <;> simp [wf, ThPt.flip, thSg] <;> ring
  exact ⟨⟨_, this, rfl⟩, ⟨_, this, rfl⟩⟩

theorem keeps_dbl_xy (h : SurfNet O θ) (h2 : (2 : L) ≠ 0) {z : G} (hz : (θ z).Z = 0) (ht : (θ z).T = 0) :
    Keeps 1 O (θ (2 • z)) ∧ Keeps 2 O (θ (2 • z)) := by
  obtain ⟨c, hc, e⟩ := double_xy h2 h.six (h.dbl z) hz ht (h.ne _)
  have : Signs O (θ (2 • z)) (fun j => decide (j = 6 ∨ j = 7 ∨ j = 8 ∨ j = 9)) := by
    refine ⟨c ^ 2, pow_ne_zero 2 hc, fun j => ?_⟩
    rw [e, wf_scale_both]
    congr 1
    fin_cases j <;> simp [wf, ThPt.flip, thSg] <;> ring
  exact ⟨⟨_, this, rfl⟩, ⟨_, this, rfl⟩⟩

/-- A step. -/
theorem step (h : SurfNet O θ) (h2 : (2 : L) ≠ 0) {T1 T2 : ThPt L} (hO : O.sqTheta.NZ) (hk : KerDual O T1 T2)
    (hn : ∀ j, wf j (isoNull O T1 T2) (isoNull O T1 T2) ≠ 0) :
    SurfNet (isoNull O T1 T2) fun x => isoImage O T1 T2 (θ x) := by
  have k := h.knet.step h2 hO h.six hk
  exact ⟨hn, fun _ => k.ne trivial, k.zero, fun _ _ => k.riem trivial trivial trivial trivial⟩

theorem keeps_step [IsAlgClosed L] (h : SurfNet O θ) (h2 : (2 : L) ≠ 0) {T1 T2 : ThPt L} (hO : O.sqTheta.NZ) (hk : KerDual O T1 T2)
    (hn : ∀ j, wf j (isoNull O T1 T2) (isoNull O T1 T2) ≠ 0) {i : Fin 10} (hi : i = 1 ∨ i = 2) {R : G} (hR : Keeps i O (θ R)) :
    Keeps i (isoNull O T1 T2) (isoImage O T1 T2 (θ R)) := by
  have h' := h.step h2 hO hk hn
  obtain ⟨e, he, e0⟩ := hR
  obtain ⟨e', he'⟩ := exists_signs (h'.dbl R) (h'.zero.trans ((isoImage_same h.zero).symm.trans (isoImage_same (h.signs_null h2 he))))
  obtain ⟨s, hs, eO⟩ := isoImage_null' hO hk
  obtain ⟨a1, -⟩ := he.ok h2 h.ten
  obtain ⟨k, hk0, hW⟩ := he
  have w0 := hW 0
  have w1 := hW 1
  have w2 := hW 2
  have w3 := hW 3
  have key : ∀ j, j = 0 ∨ j = i → wf j (isoImage O T1 T2 (θ R)) (isoImage O T1 T2 (θ R)) = k ^ 2 * wf j (isoImage O T1 T2 O) (isoImage O T1 T2 O) := by
    intro j hj
    rw [isoImage_eq' hO hk, isoImage_eq' hO hk, wf_had, wf_had, sqTheta_wf, sqTheta_wf]
    generalize (twoIsoCoeffs (ThStr.new O) T1 T2).1 = A
    have sq : ∀ b : Bool, (thSg b * thSg b : L) = 1 := fun b => by rw [thSg_mul]; simp [thSg]
    have dg : ∀ a b c d : L, ThPt.div ⟨a, b, c, d⟩ A = ⟨a * A.X⁻¹, b * A.Y⁻¹, c * A.Z⁻¹, d * A.T⁻¹⟩ := fun a b c d => by
      simp only [ThPt.div, div_eq_mul_inv]
    rw [w0, w1, w2, w3, dg, dg]
    have s0 := sq (e 0)
    have s1 := sq (e 1)
    have s2 := sq (e 2)
    have s3 := sq (e 3)
    generalize wf 0 O O = o0, wf 1 O O = o1, wf 2 O O = o2, wf 3 O O = o3
    generalize A.X⁻¹ = x0, A.Y⁻¹ = x1, A.Z⁻¹ = x2, A.T⁻¹ = x3
    rcases hj with rfl | rfl
    · simp only [hperm, wf]
      linear_combination (4 * k ^ 2 * o0 ^ 2 * x0 ^ 2) * s0 + (4 * k ^ 2 * o1 ^ 2 * x1 ^ 2) * s1 + (4 * k ^ 2 * o2 ^ 2 * x2 ^ 2) * s2 +
        (4 * k ^ 2 * o3 ^ 2 * x3 ^ 2) * s3
    · rcases hi with rfl | rfl
      · have e2 : e 2 = e 3 := by
          rw [e0] at a1
          revert a1; generalize e 1 = x, e 2 = y, e 3 = z; revert x y z; decide
        rw [e0, e2]
        simp only [hperm, wf]
        linear_combination (8 * k ^ 2 * o0 * o1 * x0 * x1) * s1 + (8 * k ^ 2 * o2 * o3 * x2 * x3) * s3
      · have e2 : e 1 = e 3 := by
          rw [e0] at a1
          revert a1; generalize e 1 = x, e 2 = y, e 3 = z; revert x y z; decide
        rw [e0, e2]
        simp only [hperm, wf]
        linear_combination (8 * k ^ 2 * o0 * o2 * x0 * x2) * s2 + (8 * k ^ 2 * o1 * o3 * x1 * x3) * s3
  refine he'.keeps h2 hn (c := k ^ 2 * s ^ 2) ?_ ?_
  · rw [key 0 (.inl rfl), eO, wf_scale_both]; ring
  · rw [key i (.inr rfl), eO, wf_scale_both]; ring

end SurfNet

/-- The image of a point before the last step. -/
def penImg : Nat → ThPt L → ThPt L → ThPt L → ThPt L → ThPt L
  | 0, O, K1, K2, X => isoImage O ((ThStr.new O).double K1) ((ThStr.new O).double K2) X
  | r + 1, O, K1, K2, X =>
    let T1 := (ThStr.new O).doubleIter K1 (r + 2)
    let T2 := (ThStr.new O).doubleIter K2 (r + 2)
    penImg r (isoNull O T1 T2) (isoImage O T1 T2 K1) (isoImage O T1 T2 K2) (isoImage O T1 T2 X)

theorem polyMap_pen : ∀ (r : ℕ) (O K1 K2 : ThPt L), PolyMap (2 ^ (r + 1)) (penImg r O K1 K2)
  | 0, _, _, _ => polyMap_iso true _
  | r + 1, _, _, _ => by
    rw [pow_succ]
    exact (polyMap_pen r _ _ _).comp (polyMap_iso true _)

theorem penImg_same : ∀ (r : ℕ) {O K1 K2 X Y : ThPt L}, X.Same Y → (penImg r O K1 K2 X).Same (penImg r O K1 K2 Y)
  | 0, _, _, _, _, _, h => isoImage_same h
  | r + 1, _, _, _, _, _, h => penImg_same r (isoImage_same h)

/-- The net before the last step. -/
theorem penNet [IsAlgClosed L] (h2 : (2 : L) ≠ 0) {P Q : G} : ∀ (r : ℕ) {O K1 K2 : ThPt L} {θ : G → ThPt L}, SurfNet O θ → JacChain (r + 2) O K1 K2 →
    OnKummer O K1 → OnKummer O K2 → (θ P).Same K1 → (θ Q).Same K2 →
    SurfNet (penNull r O K1 K2) (fun x => penImg r O K1 K2 (θ x)) ∧
    Aligned (penImg r O K1 K2 (θ (2 • P))) (penImg r O K1 K2 (θ (2 • Q))) ∧
    ∀ {i : Fin 10} {R : G}, i = 1 ∨ i = 2 → Keeps i O (θ R) → Keeps i (penNull r O K1 K2) (penImg r O K1 K2 (θ R)) := by
  have it : ∀ {O X : ThPt L} (m : Nat), ThNull O → OnKummer O X → X ≠ ThPt.zero →
      OnKummer O ((ThStr.new O).doubleIter X m) ∧ (ThStr.new O).doubleIter X m ≠ ThPt.zero := by
    intro O X m hO
    induction m generalizing X with
    | zero => exact fun a b => ⟨a, b⟩
    | succ m ih => exact fun a b => ih (kummer_double h2 hO a) (double_ne_zero h2 hO b)
  have nz : ∀ {O X Y : ThPt L}, X.Same Y → X ≠ ThPt.zero → Y ≠ ThPt.zero := by
    rintro O X Y ⟨c, hc, rfl⟩ hX h0
    exact hX (scale_eq_zero hc h0)
  intro r
  induction r with
  | zero =>
    intro O K1 K2 θ hθ ⟨hO, hn, ha, hn', ha'⟩ hK1 hK2 eP eQ
    have y1 := double_ne_zero h2 hO (nz (O := O) eP (hθ.ne _))
    have y2 := double_ne_zero h2 hO (nz (O := O) eQ (hθ.ne _))
    have hkd := kernel_dual h2 hO (ha.kernel8 h2 hO hn (kummer_double h2 hO hK1) (kummer_double h2 hO hK2) y1 y2)
    have z1 := same_zeros (isoImage_same (O := O) (T1 := (ThStr.new O).double K1) (T2 := (ThStr.new O).double K2)
      (hθ.knet.double h2 hO hθ.six trivial trivial trivial hK1 eP))
    have z2 := same_zeros (isoImage_same (O := O) (T1 := (ThStr.new O).double K1) (T2 := (ThStr.new O).double K2)
      (hθ.knet.double h2 hO hθ.six trivial trivial trivial hK2 eQ))
    exact ⟨hθ.step h2 hO.dual hkd hn'.wf, ⟨z1.1 ha'.y1, z1.2.2 ha'.t1, z2.2.1 ha'.z2, z2.2.2 ha'.t2⟩,
      fun hi hR => hθ.keeps_step h2 hO.dual hkd hn'.wf hi hR⟩
  | succ r ih =>
    intro O K1 K2 θ hθ ⟨hO, hn, ha, hc⟩ hK1 hK2 eP eQ
    obtain ⟨a1, b1⟩ := it (r + 2) hO hK1 (nz (O := O) eP (hθ.ne _))
    obtain ⟨a2, b2⟩ := it (r + 2) hO hK2 (nz (O := O) eQ (hθ.ne _))
    have hk := ha.kernel8 h2 hO hn a1 a2 b1 b2
    have hkd := kernel_dual h2 hO hk
    have hn' : ∀ j, wf j (isoNull O ((ThStr.new O).doubleIter K1 (r + 2)) ((ThStr.new O).doubleIter K2 (r + 2)))
        (isoNull O ((ThStr.new O).doubleIter K1 (r + 2)) ((ThStr.new O).doubleIter K2 (r + 2))) ≠ 0 := by
      cases r with
      | zero => exact NoneVanishes.wf hc.2.1
      | succ r => exact NoneVanishes.wf hc.2.1
    obtain ⟨i1, i2, i3⟩ := ih (hθ.step h2 hO.dual hkd hn') hc (isoImage_kummer h2 hO hk hK1) (isoImage_kummer h2 hO hk hK2)
      (isoImage_same eP) (isoImage_same eQ)
    exact ⟨i1, i2, fun hi hR => i3 hi (hθ.keeps_step h2 hO.dual hkd hn' hi hR)⟩

end
end Festa
