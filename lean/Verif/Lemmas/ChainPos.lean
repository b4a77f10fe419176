import Verif.Lemmas.RiemannLoop
import Verif.Lemmas.ThetaMap
/-! Where the chain sends its second kernel point and a point of order two. -/
namespace Festa
variable {K : Type*} [Field K] [DecidableEq K]

/-- Exchange of the first and the last two coordinates. -/
def ThPt.swapZ (X : ThPt K) : ThPt K := ⟨X.Z, X.T, X.X, X.Y⟩

/-- The last two coordinates negated. -/
def ThPt.negZT (X : ThPt K) : ThPt K := ⟨X.X, X.Y, -X.Z, -X.T⟩

omit [DecidableEq K] in
theorem negZT_had (X : ThPt K) : X.negZT.had = X.had.swapZ := by
  simp only [ThPt.negZT, ThPt.had, ThPt.swapZ, ThPt.mk.injEq]
  refine ⟨?_, ?_, ?_, ?_⟩ <;> ring

omit [DecidableEq K] in
theorem swapZ_same {X Y : ThPt K} (h : X.Same Y) : X.swapZ.Same Y.swapZ := by
  obtain ⟨c, hc, rfl⟩ := h
  exact ⟨c, hc, rfl⟩

omit [DecidableEq K] in
theorem isoImage_swapZ {O T1 T2 : ThPt K} (hO : O.sqTheta.NZ) (hd : KerDual O T1 T2) :
    (isoImage O T1 T2 O.swapZ).Same (isoNull O T1 T2).swapZ := by
  have e : isoImage O T1 T2 O.swapZ = (isoImage O T1 T2 O).swapZ := by
    rw [isoImage_eq' hO hd, isoImage_eq' hO hd, ← negZT_had]
    congr 1
    simp only [ThPt.sqTheta, ThPt.had, ThPt.swapZ, ThPt.div, ThPt.negZT, ThPt.mk.injEq, ← neg_div]
    refine ⟨?_, ?_, ?_, ?_⟩ <;> congr 1 <;> ring
  rw [e]
  exact (swapZ_same (isoImage_null' hO hd)).symm

theorem chain_pos (h2 : (2 : K) ≠ 0) {F : ThPt K → Prop} : ∀ (r : ℕ) {O K1 K2 : ThPt K}, RegChain F (r + 2) O K1 K2 → OnKummer O K1 → OnKummer O K2 →
    (∀ {X Y : ThPt K}, X.Same Y → (chainImg r O K1 K2 X).Same (chainImg r O K1 K2 Y)) ∧
    (chainImg r O K1 K2 K2).X = (chainImg r O K1 K2 K2).Z ∧ (chainImg r O K1 K2 K2).Y = (chainImg r O K1 K2 K2).T ∧
      (chainImg r O K1 K2 O.swapZ).Same (chainNull r O K1 K2).negZT := by
  intro r
  induction r with
  | zero =>
    intro O K1 K2 ⟨hO, h6, hk, ⟨hO', h6'⟩, hl, hF⟩ hK1 hK2
    set T1 := (ThStr.new O).double K1 with hT1
    set T2 := (ThStr.new O).double K2 with hT2
    have hkd := kernel_dual h2 hO hk
    have kdbl : ∀ {X : ThPt K}, OnKummer O X → Riem (isoNull O T1 T2) (isoImage O T1 T2 X) (isoImage O T1 T2 X)
        (isoImage O T1 T2 ((ThStr.new O).double X)) (isoNull O T1 T2) := fun {X} hX =>
      ((Riem.double h2 hO hX).isoImage h2 hO.dual h6 hkd (.of_kummer hO hX) (.of_kummer hO hX)).same (.refl _) (.refl _)
        (.refl _) (.refl _) (isoImage_null' hO.dual hkd).symm
    have hkd' : KerDual (isoNull O T1 T2) (isoImage O T1 T2 K1) (isoImage O T1 T2 K2) := hl.dual h2 hO' (kdbl hK1) (kdbl hK2)
    let g := twoIsoImage false false (twoIsoCoeffs (ThStr.new O) T1 T2).2
    have ag := toProd_agrees' (O := (twoIsoCoeffs (ThStr.new O) T1 T2).1) (T1 := g K1) (T2 := g K2) hO' hkd'
    have e : ∀ X, (chainImg 0 O K1 K2 X).had =
        isoImage (isoNull O T1 T2) (isoImage O T1 T2 K1) (isoImage O T1 T2 K2) (isoImage O T1 T2 X) := fun X => (ag (g X)).2
    refine ⟨fun {X Y} h => same_of_had h2 ?_, ?_, ?_, same_of_had h2 ?_⟩
    · rw [e, e]
      exact isoImage_same (isoImage_same h)
    · obtain ⟨-, -, n2, -⟩ := hkd'.nz hO'
      have n2 : (g K2).had.sqTheta.Z * (g K2).had.sqTheta.X⁻¹ ≠ 0 := n2
      change (g K2).had.sqTheta.X = (g K2).had.sqTheta.Z * ((g K2).had.sqTheta.X * (g K2).had.sqTheta.Z⁻¹)
      rw [mul_left_comm, mul_inv_cancel₀ (left_ne_zero_of_mul n2), mul_one]
    · obtain ⟨-, -, -, n3⟩ := hkd'.nz hO'
      have n3 : (g K2).had.sqTheta.T * (g K2).had.sqTheta.Y⁻¹ * _ ≠ 0 := n3
      change (g K2).had.sqTheta.Y * _ = (g K2).had.sqTheta.T * ((g K2).had.sqTheta.Y * (g K2).had.sqTheta.T⁻¹ * _)
      rw [← mul_assoc (g K2).had.sqTheta.T, mul_left_comm (g K2).had.sqTheta.T, mul_inv_cancel₀ (left_ne_zero_of_mul (left_ne_zero_of_mul n3)), mul_one]
    · rw [e, negZT_had]
      refine (isoImage_same (isoImage_swapZ hO.dual hkd)).trans ?_
      exact isoImage_swapZ hO' hkd'
  | succ r ih =>
    intro O K1 K2 ⟨hO, h6, hk, hc⟩ hK1 hK2
    obtain ⟨a, b, c, d⟩ := ih hc (isoImage_kummer h2 hO hk hK1) (isoImage_kummer h2 hO hk hK2)
    exact ⟨fun h => a (isoImage_same h), b, c, (a (isoImage_swapZ hO.dual (kernel_dual h2 hO hk))).trans d⟩

omit [DecidableEq K] in
/-- What the matrix of the splitting makes of the second kernel point. -/
theorem baseChange_snd {M : Mat4 K} (hM : M = ⟨⟨1, 1, 1, 1⟩, ⟨1, -1, 1, -1⟩, ⟨1, 1, -1, -1⟩, ⟨-1, 1, 1, -1⟩⟩) {X : ThPt K}
    (h1 : X.X = X.Z) (h2 : X.Y = X.T) : (X.baseChange M).Z = 0 ∧ (X.baseChange M).T = 0 := by
  subst hM
  simp only [ThPt.baseChange, ThPt.dot, h1, h2]
  constructor <;> ring

omit [DecidableEq K] in
/-- What it makes of the point of order two. -/
theorem baseChange_negZT {M : Mat4 K} (hM : M = ⟨⟨1, 1, 1, 1⟩, ⟨1, -1, 1, -1⟩, ⟨1, 1, -1, -1⟩, ⟨-1, 1, 1, -1⟩⟩) {X : ThPt K} {o o' : K × K}
    (h : X.baseChange M = ThPt.tensor o o') : X.negZT.baseChange M = ThPt.tensor (o.2, o.1) (o'.1, -o'.2) := by
  subst hM
  simp only [ThPt.baseChange, ThPt.tensor, ThPt.mk.injEq, ThPt.negZT] at *
  obtain ⟨a, b, c, d⟩ := h
  rw [mul_neg, mul_neg, ← a, ← b, ← c, ← d]
  simp only [ThPt.dot]
  refine ⟨?_, ?_, ?_, ?_⟩ <;> ring

end Festa
