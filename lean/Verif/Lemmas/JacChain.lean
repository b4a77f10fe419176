import Verif.Lemmas.ProductMap
import Verif.Spec.JacChain
/-! Chains among Jacobians: the denominators do not vanish, and if the null point at the end has a vanishing even constant then
it has exactly one. -/
namespace Festa
variable {K : Type*} [Field K]

theorem ProdChain.jac : ∀ {r : Nat} {O K1 K2 : ThPt K}, ProdChain r O K1 K2 → JacChain r O K1 K2
  | 0, _, _, _, h => h.elim
  | 1, _, _, _, h => h.elim
  | 2, _, _, _, ⟨h1, h2, h3, h4, h5, _⟩ => ⟨h1, h2, ⟨h3.y1, h3.t1, h3.z2, h3.t2⟩, h4, ⟨h5.y1, h5.t1, h5.z2, h5.t2⟩⟩
  | _ + 3, _, _, _, ⟨h1, h2, h3, h4⟩ => ⟨h1, h2, ⟨h3.y1, h3.t1, h3.z2, h3.t2⟩, ProdChain.jac h4⟩

/-- The forms of a point above `(x : 0 : z : 0)` do not vanish. -/
theorem wf_ne_xz (h2 : (2 : K) ≠ 0) {O T V W : ThPt K} (hO : O.sqTheta.NZ) (h6 : SixNZ O) (rT : Riem O T T V O) (rV : Riem O V V W O)
    (hy : V.Y = 0) (ht : V.T = 0) (hw : W ≠ ThPt.zero) (j : Fin 10) (hj : j.val < 4) : wf j T T ≠ 0 := by
  obtain ⟨l, hl, rfl⟩ := double_xz h2 h6 rV hy ht hw
  obtain ⟨c, -, hT⟩ := rT
  obtain ⟨c', -, hV⟩ := rV
  intro h0
  have hj0 : wf j V O = 0 := (mul_eq_zero.mp ((hT j).trans (by rw [h0]; ring))).resolve_right (ten_nz hO h6 j)
  have hsq : V.X ^ 2 * O.X ^ 2 = V.Z ^ 2 * O.Z ^ 2 := by
    have : V.X * O.X = V.Z * O.Z ∨ V.X * O.X = -(V.Z * O.Z) := by
      fin_cases j <;> first | (exact absurd hj (by decide)) | skip
      all_goals simp only [wf, hy, ht] at hj0
      · right; linear_combination hj0
      · right; linear_combination hj0
      · left; linear_combination hj0
      · left; linear_combination hj0
    rcases this with e | e
    · linear_combination (V.X * O.X + V.Z * O.Z) * e
    · linear_combination (V.X * O.X - V.Z * O.Z) * e
  have e0 := hV 0
  have e6 := hV 6
  simp only [wf, ThPt.flip, ThPt.scale, if_true, hy, ht] at e0 e6
  have key : l * (wf 4 O O * wf 5 O O * (wf 8 O O * wf 9 O O)) = 0 := by
    simp only [wf]
    linear_combination (16 * O.X ^ 2 * O.Z ^ 2) * e0 - (4 * (O.X ^ 2 + O.Z ^ 2) ^ 2) * e6 +
      (16 * c' * (V.X ^ 2 * O.Z ^ 2 - V.Z ^ 2 * O.X ^ 2)) * hsq
  have n := h6
  obtain ⟨n4, n5, -, -, n8, n9⟩ := n
  exact mul_ne_zero hl (mul_ne_zero (mul_ne_zero n4 n5) (mul_ne_zero n8 n9)) key

/-- The forms of a point above `(x : y : 0 : 0)` do not vanish. -/
theorem wf_ne_xy (h2 : (2 : K) ≠ 0) {O T V W : ThPt K} (hO : O.sqTheta.NZ) (h6 : SixNZ O) (rT : Riem O T T V O) (rV : Riem O V V W O)
    (hz : V.Z = 0) (ht : V.T = 0) (hw : W ≠ ThPt.zero) (j : Fin 10) (hj : j.val < 4) : wf j T T ≠ 0 := by
  obtain ⟨l, hl, rfl⟩ := double_xy h2 h6 rV hz ht hw
  obtain ⟨c, -, hT⟩ := rT
  obtain ⟨c', -, hV⟩ := rV
  intro h0
  have hj0 : wf j V O = 0 := (mul_eq_zero.mp ((hT j).trans (by rw [h0]; ring))).resolve_right (ten_nz hO h6 j)
  have hsq : V.X ^ 2 * O.X ^ 2 = V.Y ^ 2 * O.Y ^ 2 := by
    have : V.X * O.X = V.Y * O.Y ∨ V.X * O.X = -(V.Y * O.Y) := by
      fin_cases j <;> first | (exact absurd hj (by decide)) | skip
      all_goals simp only [wf, hz, ht] at hj0
      · right; linear_combination hj0
      · left; linear_combination hj0
      · right; linear_combination hj0
      · left; linear_combination hj0
    rcases this with e | e
    · linear_combination (V.X * O.X + V.Y * O.Y) * e
    · linear_combination (V.X * O.X - V.Y * O.Y) * e
  have e0 := hV 0
  have e4 := hV 4
  simp only [wf, ThPt.flip, ThPt.scale, Bool.false_eq_true, if_false, hz, ht] at e0 e4
  have key : l * (wf 6 O O * wf 7 O O * (wf 8 O O * wf 9 O O)) = 0 := by
    simp only [wf]
    linear_combination (16 * O.X ^ 2 * O.Y ^ 2) * e0 - (4 * (O.X ^ 2 + O.Y ^ 2) ^ 2) * e4 +
      (16 * c' * (V.X ^ 2 * O.Y ^ 2 - V.Y ^ 2 * O.X ^ 2)) * hsq
  have n := h6
  obtain ⟨-, -, n6, n7, n8, n9⟩ := n
  exact mul_ne_zero hl (mul_ne_zero (mul_ne_zero n6 n7) (mul_ne_zero n8 n9)) key

theorem NoneVanishes.wf {O : ThPt K} (h : NoneVanishes O) (j : Fin 10) : wf j O O ≠ 0 := evenConst_wi O j ▸ h _ _ (wi_even j)

/-- Points aligned with the theta structure, the point they double to, and the denominators. -/
theorem sq_ne {O T1 T2 D1 D2 W1 W2 : ThPt K} (h2 : (2 : K) ≠ 0) (hO : NoneVanishes O) (r1 : Riem O T1 T1 D1 O) (r2 : Riem O T2 T2 D2 O)
    (s1 : Riem O D1 D1 W1 O) (s2 : Riem O D2 D2 W2 O) (w1 : W1 ≠ ThPt.zero) (w2 : W2 ≠ ThPt.zero) (ha : Aligned D1 D2) :
    T1.sqTheta.X ≠ 0 ∧ T2.sqTheta.X ≠ 0 ∧ T2.sqTheta.Y ≠ 0 := by
  obtain ⟨q, h6⟩ := hO.six
  rw [sqTheta_wf, sqTheta_wf]
  exact ⟨wf_ne_xz h2 q h6 r1 s1 ha.y1 ha.t1 w1 0 (by decide), wf_ne_xy h2 q h6 r2 s2 ha.z2 ha.t2 w2 0 (by decide),
    wf_ne_xy h2 q h6 r2 s2 ha.z2 ha.t2 w2 1 (by decide)⟩

theorem Aligned.kernel8 {O T1 T2 : ThPt K} (h2 : (2 : K) ≠ 0) (hO : ThNull O) (hn : NoneVanishes O) (k1 : OnKummer O T1) (k2 : OnKummer O T2)
    (n1 : T1 ≠ ThPt.zero) (n2 : T2 ≠ ThPt.zero) (ha : Aligned ((ThStr.new O).double T1) ((ThStr.new O).double T2)) : Kernel8 O T1 T2 := by
  obtain ⟨a, b, c⟩ := sq_ne h2 hn (.double h2 hO k1) (.double h2 hO k2) (.double h2 hO (kummer_double h2 hO k1))
    (.double h2 hO (kummer_double h2 hO k2)) (double_ne_zero h2 hO (double_ne_zero h2 hO n1))
    (double_ne_zero h2 hO (double_ne_zero h2 hO n2)) ha
  exact ⟨ha.y1, ha.t1, ha.z2, ha.t2, a, b, c⟩

/-- If the last coordinate of the null point of a Jacobian vanishes, then exactly one even constant of the codomain of a step
vanishes, and always the same. -/
theorem one_of_dual (h2 : (2 : K) ≠ 0) {O A : ThPt K} {l : K} (hO : NoneVanishes O) (hd : DualOf O A l) (hT : O.T = 0) (j : Fin 10) :
    wf j A.had A.had = 0 ↔ j = 8 := by
  have n := hO.wf
  obtain ⟨hl, eX, eY, eZ, eT⟩ := hd
  have f4 := four_ne h2
  have e0 : wf 0 A.had A.had = 16 * l * O.X ^ 2 := by
    simp only [wf, ThPt.sqTheta, ThPt.had] at eX eY eZ eT ⊢; linear_combination 4 * eX + 4 * eY + 4 * eZ + 4 * eT
  have e4 : wf 4 A.had A.had = 16 * l * O.Y ^ 2 := by
    simp only [wf, ThPt.sqTheta, ThPt.had] at eX eY eZ eT ⊢; linear_combination 4 * eX - 4 * eY + 4 * eZ - 4 * eT
  have e6 : wf 6 A.had A.had = 16 * l * O.Z ^ 2 := by
    simp only [wf, ThPt.sqTheta, ThPt.had] at eX eY eZ eT ⊢; linear_combination 4 * eX + 4 * eY - 4 * eZ - 4 * eT
  have e8 : wf 8 A.had A.had = 16 * l * O.T ^ 2 := by
    simp only [wf, ThPt.sqTheta, ThPt.had] at eX eY eZ eT ⊢; linear_combination 4 * eX - 4 * eY - 4 * eZ + 4 * eT
  have six : ∀ {a b c d : Fin 10}, wf a A.had A.had * wf b A.had A.had = 64 * l ^ 2 * (wf c O O * wf d O O) →
      wf a A.had A.had ≠ 0 ∧ wf b A.had A.had ≠ 0 := by
    intro a b c d e
    have : wf a A.had A.had * wf b A.had A.had ≠ 0 := by
      rw [e, show (64 : K) = 4 * 4 * 4 by norm_num]
      exact mul_ne_zero (mul_ne_zero (mul_ne_zero (mul_ne_zero f4 f4) f4) (pow_ne_zero _ hl)) (mul_ne_zero (n c) (n d))
    exact ⟨left_ne_zero_of_mul this, right_ne_zero_of_mul this⟩
  obtain ⟨n1, n7⟩ : wf 1 A.had A.had ≠ 0 ∧ wf 7 A.had A.had ≠ 0 := by
    refine six (c := 6) (d := 7) ?_
    simp only [wf, ThPt.sqTheta, ThPt.had] at eX eY eZ eT ⊢
    linear_combination 64 * A.Y ^ 2 * eX + 64 * (l * (O.X * O.X + O.Y * O.Y + (O.Z * O.Z + O.T * O.T))) * eY -
      64 * A.T ^ 2 * eZ - 64 * (l * (O.X * O.X + O.Y * O.Y - (O.Z * O.Z + O.T * O.T))) * eT
  obtain ⟨n2, n5⟩ : wf 2 A.had A.had ≠ 0 ∧ wf 5 A.had A.had ≠ 0 := by
    refine six (c := 4) (d := 5) ?_
    simp only [wf, ThPt.sqTheta, ThPt.had] at eX eY eZ eT ⊢
    linear_combination 64 * A.Z ^ 2 * eX + 64 * (l * (O.X * O.X + O.Y * O.Y + (O.Z * O.Z + O.T * O.T))) * eZ -
      64 * A.T ^ 2 * eY - 64 * (l * (O.X * O.X - O.Y * O.Y + (O.Z * O.Z - O.T * O.T))) * eT
  obtain ⟨n3, n9⟩ : wf 3 A.had A.had ≠ 0 ∧ wf 9 A.had A.had ≠ 0 := by
    refine six (c := 8) (d := 9) ?_
    simp only [wf, ThPt.sqTheta, ThPt.had] at eX eY eZ eT ⊢
    linear_combination 64 * A.T ^ 2 * eX + 64 * (l * (O.X * O.X + O.Y * O.Y + (O.Z * O.Z + O.T * O.T))) * eT -
      64 * A.Z ^ 2 * eY - 64 * (l * (O.X * O.X - O.Y * O.Y + (O.Z * O.Z - O.T * O.T))) * eZ
  have l16 : 16 * l ≠ 0 := by rw [show (16 : K) = 4 * 4 by norm_num]; exact mul_ne_zero (mul_ne_zero f4 f4) hl
  have m0 : O.X ≠ 0 := fun a => n 6 (by simp only [wf, a, hT]; ring)
  have mY : O.Y ≠ 0 := fun a => n 4 (by simp only [wf, a, hT]; ring)
  have mZ : O.Z ≠ 0 := fun a => n 6 (by simp only [wf, a, hT]; ring)
  have sq : ∀ {x : K}, x ≠ 0 → 16 * l * x ^ 2 ≠ 0 := fun h => mul_ne_zero l16 (pow_ne_zero 2 h)
  have none : ∀ {j : Fin 10}, wf j A.had A.had ≠ 0 → j ≠ 8 → (wf j A.had A.had = 0 ↔ j = 8) :=
    fun h h' => ⟨fun e => absurd e h, fun e => absurd e h'⟩
  fin_cases j
  exacts [none (e0 ▸ sq m0) (by decide), none n1 (by decide), none n2 (by decide), none n3 (by decide), none (e4 ▸ sq mY) (by decide),
    none n5 (by decide), none (e6 ▸ sq mZ) (by decide), none n7 (by decide), ⟨fun _ => rfl, fun _ => by rw [hT] at e8; rw [show ((⟨8, by decide⟩ : Fin 10)) = 8 from rfl, e8]; ring⟩, none n9 (by decide)]

/-- A chain among Jacobians is regular, and if the last coordinate of the null point before its last step vanishes then it ends
in a product, always with the same vanishing constant. -/
theorem JacChain.prod (h2 : (2 : K) ≠ 0) : ∀ (r : Nat) {O K1 K2 : ThPt K}, JacChain (r + 2) O K1 K2 → OnKummer O K1 → OnKummer O K2 →
    K1 ≠ ThPt.zero → K2 ≠ ThPt.zero → RegChain (fun _ => True) (r + 2) O K1 K2 ∧
      ((penNull r O K1 K2).T = 0 → ProdChain (r + 2) O K1 K2 ∧
        ∀ j, wf j (chainNull r O K1 K2).had (chainNull r O K1 K2).had = 0 ↔ j = 8) := by
  have it : ∀ {O X : ThPt K} (m : Nat), ThNull O → OnKummer O X → X ≠ ThPt.zero →
      OnKummer O ((ThStr.new O).doubleIter X m) ∧ (ThStr.new O).doubleIter X m ≠ ThPt.zero := by
    intro O X m hO
    induction m generalizing X with
    | zero => exact fun a b => ⟨a, b⟩
    | succ m ih => exact fun a b => ih (kummer_double h2 hO a) (double_ne_zero h2 hO b)
  intro r
  induction r with
  | zero =>
    intro O K1 K2 ⟨hO, hn, ha, hn', ha'⟩ hK1 hK2 z1 z2
    set T1 := (ThStr.new O).double K1 with hT1
    set T2 := (ThStr.new O).double K2 with hT2
    have y1 := double_ne_zero h2 hO z1
    have y2 := double_ne_zero h2 hO z2
    have k1 := kummer_double h2 hO hK1
    have k2 := kummer_double h2 hO hK2
    have hk : Kernel8 O T1 T2 := ha.kernel8 h2 hO hn k1 k2 y1 y2
    have hkd := kernel_dual h2 hO hk
    have kdbl : ∀ {X : ThPt K}, OnKummer O X → Riem (isoNull O T1 T2) (isoImage O T1 T2 X) (isoImage O T1 T2 X)
        (isoImage O T1 T2 ((ThStr.new O).double X)) (isoNull O T1 T2) := fun {X} hX =>
      ((Riem.double h2 hO hX).isoImage h2 hO.dual hn.six.2 hkd (.of_kummer hO hX) (.of_kummer hO hX)).same (.refl _) (.refl _)
        (.refl _) (.refl _) (isoImage_null' hO.dual hkd).symm
    obtain ⟨a, b, c⟩ := sq_ne h2 hn' (kdbl hK1) (kdbl hK2) (kdbl k1) (kdbl k2)
      (isoImage_ne_zero' h2 hO.dual hkd (double_ne_zero h2 hO y1)) (isoImage_ne_zero' h2 hO.dual hkd (double_ne_zero h2 hO y2)) ha'
    have hl : LastKernel (isoImage O T1 T2 K1) (isoImage O T1 T2 K2) (isoImage O T1 T2 T1) (isoImage O T1 T2 T2) :=
      ⟨ha'.y1, ha'.t1, ha'.z2, ha'.t2, a, b, c⟩
    refine ⟨⟨hO, hn.six.2, hk, hn'.six, hl, trivial⟩, fun hT => ?_⟩
    have hkd' : KerDual (isoNull O T1 T2) (isoImage O T1 T2 K1) (isoImage O T1 T2 K2) := hl.dual h2 hn'.six.1 (kdbl hK1) (kdbl hK2)
    have one := one_of_dual h2 hn' hkd' hT
    refine ⟨⟨hO, hn, hk, hn', hl, oneVanishes_iff.mpr ⟨8, by decide, one⟩⟩, fun j => ?_⟩
    rw [← one j]
    exact Iff.rfl
  | succ r ih =>
    intro O K1 K2 ⟨hO, hn, ha, hc⟩ hK1 hK2 z1 z2
    obtain ⟨a1, b1⟩ := it (r + 2) hO hK1 z1
    obtain ⟨a2, b2⟩ := it (r + 2) hO hK2 z2
    have hk := ha.kernel8 h2 hO hn a1 a2 b1 b2
    have hkd := kernel_dual h2 hO hk
    obtain ⟨i1, i2⟩ := ih hc (isoImage_kummer h2 hO hk hK1) (isoImage_kummer h2 hO hk hK2) (isoImage_ne_zero' h2 hO.dual hkd z1)
      (isoImage_ne_zero' h2 hO.dual hkd z2)
    exact ⟨⟨hO, hn.six.2, hk, i1⟩, fun h => ⟨⟨hO, hn, hk, (i2 h).1⟩, (i2 h).2⟩⟩

end Festa
