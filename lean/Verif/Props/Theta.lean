import Verif.Lemmas.ThetaSplit
import Verif.Model.FestaConsts
import Verif.Spec.EC
import Verif.Spec.TestField
import Verif.Spec.TestField127
/-! Properties C47 to C50: theta structures and chains of (2,2)-isogenies. -/
namespace Festa
variable {K : Type*} [Field K]

/-! ### Data for the examples -/

/-- The null point, the two kernel points after the gluing, and the points of order 8 above the first
kernel, of the chain with kernel `p127, q127`. -/
def o127 : ThPt F127 := glueNull e127 (e127.doubleIter p127 3) (e127.doubleIter q127 3)
@[inherit_doc o127]
def k127 : ThPt F127 := glue e127 (e127.doubleIter p127 3) (e127.doubleIter q127 3) p127
@[inherit_doc o127]
def l127 : ThPt F127 := glue e127 (e127.doubleIter p127 3) (e127.doubleIter q127 3) q127

theorem o127_null : ThNull o127 :=
  ⟨⟨by decide +kernel, by decide +kernel, by decide +kernel, by decide +kernel⟩,
   ⟨by decide +kernel, by decide +kernel, by decide +kernel, by decide +kernel⟩⟩

theorem k127_on : OnKummer o127 k127 := by unfold OnKummer; decide +kernel
theorem l127_on : OnKummer o127 l127 := by unfold OnKummer; decide +kernel

theorem two127 : (2 : F127) ≠ 0 := by decide +kernel

theorem ker127 : Kernel8 o127 ((ThStr.new o127).doubleIter k127 2) ((ThStr.new o127).doubleIter l127 2) :=
  ⟨by decide +kernel, by decide +kernel, by decide +kernel, by decide +kernel, by decide +kernel,
   by decide +kernel, by decide +kernel⟩

theorem same_of {P Q : ThPt K} (h1 : P.X ≠ 0) (h2 : Q.X ≠ 0) (h : Q = P.scale (Q.X / P.X)) : P.Same Q :=
  ⟨_, div_ne_zero h2 h1, h⟩

/-! ### C48: arithmetic -/

/-- The Hadamard transform applied twice is multiplication by 4. -/
theorem C48_hadamard (P : ThPt K) : P.had.had = P.scale 4 := had_had P

example : (⟨1, 2, 3, 5⟩ : ThPt F127).had.had = ⟨4, 8, 12, 20⟩ := by
  rw [C48_hadamard]; decide +kernel

/-- Doubling does not depend on the scaling of the point or of the null point. -/
theorem C48_double_projective {O O' P P' : ThPt K} (hO : O.Same O') (hP : P.Same P') :
    ((ThStr.new O).double P).Same ((ThStr.new O').double P') := by
  obtain ⟨c, hc, rfl⟩ := hO
  refine (double_same _ hP).trans ?_
  rw [new_scale hc]
  exact .refl _

example : ((ThStr.new o127).double k127).Same ((ThStr.new (o127.scale 3)).double (k127.scale 5)) :=
  C48_double_projective ⟨3, by decide +kernel, rfl⟩ ⟨5, by decide +kernel, rfl⟩

/-- Doubling fixes the null point. -/
theorem C48_double_null (h2 : (2 : K) ≠ 0) {O : ThPt K} (hO : ThNull O) :
    O.Same ((ThStr.new O).double O) := double_null h2 hO

example : o127.Same ((ThStr.new o127).double o127) := C48_double_null two127 o127_null

/-- Doubling maps nonzero quadruples to nonzero quadruples and the Kummer surface to itself. -/
theorem C48_double_kummer (h2 : (2 : K) ≠ 0) {O P : ThPt K} (hO : ThNull O) :
    (OnKummer O P → OnKummer O ((ThStr.new O).double P)) ∧
      (P ≠ ThPt.zero → (ThStr.new O).double P ≠ ThPt.zero) :=
  ⟨kummer_double h2 hO, double_ne_zero h2 hO⟩

example : OnKummer o127 ((ThStr.new o127).double k127) :=
  (C48_double_kummer two127 o127_null).1 k127_on

/-- Translation by a point of order two (a change of sign or a permutation of the coordinates by the
Klein four group) does not change the double, and the null point lies on its own surface. -/
theorem C48_double_torsion (O : ThPt K) (P : ThPt K) :
    (ThStr.new O).double ⟨P.X, -P.Y, P.Z, -P.T⟩ = (ThStr.new O).double P ∧
    (ThStr.new O).double ⟨P.X, P.Y, -P.Z, -P.T⟩ = (ThStr.new O).double P ∧
    (ThStr.new O).double ⟨P.Y, P.X, P.T, P.Z⟩ = (ThStr.new O).double P ∧
    (ThStr.new O).double ⟨P.Z, P.T, P.X, P.Y⟩ = (ThStr.new O).double P ∧ OnKummer O O := by
  have e1 : ∀ a b c d : K, (a + b) + (c + d) = (b + a) + (d + c) := fun a b c d => by ring
  refine ⟨?_, ?_, ?_, ?_, kummer_self O⟩ <;>
    simp only [ThStr.double, ThPt.sqTheta, ThPt.had, ThPt.mk.injEq] <;>
    refine ⟨?_, ?_, ?_, ?_⟩ <;> ring

/-- `two_isogeny` with a final Hadamard transform is a map of Kummer surfaces: it sends null point to
null point, surface to surface, nonzero to nonzero, forgets translations by the kernel, and commutes
with doubling. -/
theorem C48_two_isogeny (h2 : (2 : K) ≠ 0) {O T1 T2 : ThPt K} (hO : ThNull O) (hk : Kernel8 O T1 T2) :
    ∃ (O' : ThPt K) (f : ThPt K → ThPt K),
      (∀ pts, twoIsogeny (ThStr.new O) T1 T2 pts false true = (ThStr.new O', pts.map f)) ∧
      O'.Same (f O) ∧
      (∀ P, OnKummer O P → OnKummer O' (f P)) ∧
      (∀ P, P ≠ ThPt.zero → f P ≠ ThPt.zero) ∧
      (∀ P Q, P.Same Q → (f P).Same (f Q)) ∧
      (∀ P, f ⟨P.X, -P.Y, P.Z, -P.T⟩ = f P ∧ f ⟨P.X, P.Y, -P.Z, -P.T⟩ = f P) ∧
      (ThNull O' → ∀ P, OnKummer O P → (f ((ThStr.new O).double P)).Same ((ThStr.new O').double (f P))) := by
  refine ⟨isoNull O T1 T2, isoImage O T1 T2, fun _ => rfl, isoImage_null h2 hO hk,
    fun P => isoImage_kummer h2 hO hk, fun P => isoImage_ne_zero h2 hO hk, fun P Q => isoImage_same,
    fun P => ?_, fun hN P => isoImage_double h2 hO hk hN⟩
  constructor <;> simp only [isoImage, twoIsoImage, ThPt.sqTheta, neg_mul_neg, Bool.false_eq_true, if_false]

example : ∃ (O' : ThPt F127) (f : ThPt F127 → ThPt F127),
    (∀ pts, twoIsogeny (ThStr.new o127) ((ThStr.new o127).doubleIter k127 2)
      ((ThStr.new o127).doubleIter l127 2) pts false true = (ThStr.new O', pts.map f)) ∧ O'.Same (f o127) := by
  obtain ⟨O', f, h1, h3, -⟩ := C48_two_isogeny two127 o127_null ker127
  exact ⟨O', f, h1, h3⟩

/-- Without the final transform `two_isogeny` gives the same null point and images in dual
coordinates; `two_isogeny_to_product` does the same for a domain in dual coordinates. -/
theorem C48_dual_steps (h2 : (2 : K) ≠ 0) {O T1 T2 : ThPt K} (hO : ThNull O) (hk : Kernel8 O T1 T2)
    {D U1 U2 : ThPt K} (hD : D.had = O) (hU1 : U1.had = T1) (hU2 : U2.had = T2) (pts : List (ThPt K)) :
    (twoIsogeny (ThStr.new O) T1 T2 pts false true).1.null =
        (twoIsogeny (ThStr.new O) T1 T2 pts false false).1.null.had ∧
      (twoIsogeny (ThStr.new O) T1 T2 pts false true).2 =
        (twoIsogeny (ThStr.new O) T1 T2 pts false false).2.map ThPt.had ∧
      (twoIsogeny (ThStr.new O) T1 T2 (pts.map ThPt.had) false true).1.null =
        (twoIsogenyToProduct U1 U2 pts).1.null.had ∧
      (twoIsogeny (ThStr.new O) T1 T2 (pts.map ThPt.had) false true).2 =
        (twoIsogenyToProduct U1 U2 pts).2.map ThPt.had := by
  subst hD hU1 hU2
  refine ⟨rfl, ?_, rfl, ?_⟩
  · simp only [twoIsogeny, List.map_map]
    rfl
  · simp only [twoIsogeny, toProd_eq, List.map_map]
    refine List.map_congr_left fun P _ => ?_
    exact (toProd_agrees h2 hO hk P).2.symm

example (pts : List (ThPt F127)) := C48_dual_steps two127 o127_null ker127
  (D := o127.had.scale 4⁻¹) (U1 := ((ThStr.new o127).doubleIter k127 2).had.scale 4⁻¹)
  (U2 := ((ThStr.new o127).doubleIter l127 2).had.scale 4⁻¹) (by decide +kernel) (by decide +kernel)
  (by decide +kernel) pts

/-! ### C47: chains -/

section
variable [DecidableEq K] [RootOps K]

/-- The shipped strategy is a strategy for 632 steps. -/
theorem C47_shipped_strategy : IsStrategy THETA_ISOGENY_LENGTH THETA_STRATEGY := by
  have h : parseStrategy 700 THETA_ISOGENY_LENGTH THETA_STRATEGY = some [] := by decide +kernel
  obtain ⟨S, hS, h'⟩ := parseStrategy_sound _ _ _ _ h
  rw [List.append_nil] at hS
  rw [hS]; exact h'

/-- With any strategy for `n` steps, and whatever the points are, the code never reads outside its
lists or the strategy: the result is obtained by splitting a theta structure with one image for every
input point. -/
theorem C47_strategy_in_bounds (E : EProd K) (P Q : CPt K) (images : List (CPt K)) {n : Nat}
    {S : List Nat} (hS : IsStrategy n S) :
    ∃ Th J, J.length = images.length ∧ productIsogeny E P Q images n S =
      (splittingIso Th J).bind fun r => splitToProduct r.1 r.2 images.length :=
  productIsogeny_some E P Q images hS

example (E : EProd K) (P Q : CPt K) (images : List (CPt K)) :=
  C47_strategy_in_bounds E P Q images C47_shipped_strategy

theorem chain127 : ChainOK 3 o127 k127 l127 :=
  ⟨o127_null, ker127,
    ⟨⟨by decide +kernel, by decide +kernel, by decide +kernel, by decide +kernel⟩,
     ⟨by decide +kernel, by decide +kernel, by decide +kernel, by decide +kernel⟩⟩⟩

end

/-! ### C49: splitting -/

/-- The ten pairs tried are the even characteristics, and the constants are the theta constants. -/
theorem C49_constants (O : ThPt K) (c i : Fin 4) :
    ((c, i) ∈ evenIndices ↔ Even (parity c i)) ∧ level22 O c i = evenConst O c i :=
  ⟨mem_evenIndices c i, level22_eq O c i⟩

/-- When exactly one even constant vanishes, the code finds it.  When it is not the one at `(0, 0)`,
the transformation is invertible and leads to a product.

Partial: for the index `(0, 0)` the claim is false, see `C49_zero_index_fails`. -/
theorem C49_splitting_partial [DecidableEq K] [RootOps K] {O : ThPt K} {c i : Fin 4}
    (hev : Even (parity c i))
    (h : ∀ c' i', Even (parity c' i') → (evenConst O c' i' = 0 ↔ (c', i') = (c, i))) :
    identifyEvenIndex O = (c, i) ∧ ((c, i) ≠ (0, 0) → ∃ M : Mat4 K, splittingMatrix O = some M ∧
      (Function.Bijective fun P : ThPt K => P.baseChange M) ∧
      (O.baseChange M).X * (O.baseChange M).T = (O.baseChange M).Y * (O.baseChange M).Z ∧
      ∃ u v, O.baseChange M = ThPt.tensor u v) := by
  refine ⟨identify_eq hev h, fun hne => ?_⟩
  obtain ⟨M, h1, h2, h3⟩ := splitMap_ok RootOps.two_ne O c i hev hne
  have h3 := h3 ((h c i hev).mpr rfl)
  exact ⟨M, by rw [splittingMatrix, identify_eq hev h, h1], h2, h3, tensor_of_prod h3⟩

example : ∃ M : Mat4 F29, splittingMatrix (⟨27, 16, 9, 18⟩ : ThPt F29) = some M ∧
    Function.Bijective fun P : ThPt F29 => P.baseChange M := by
  obtain ⟨-, h⟩ := C49_splitting_partial (O := (⟨27, 16, 9, 18⟩ : ThPt F29)) (c := 2) (i := 0) (by decide)
    (by decide +kernel)
  obtain ⟨M, h1, h2, -⟩ := h (by decide)
  exact ⟨M, h1, h2⟩

example : ∃ M : Mat4 F29, splittingMatrix (⟨19, 3, 20, 1⟩ : ThPt F29) = some M ∧
    Function.Bijective fun P : ThPt F29 => P.baseChange M := by
  obtain ⟨-, h⟩ := C49_splitting_partial (O := (⟨19, 3, 20, 1⟩ : ThPt F29)) (c := 1) (i := 2) (by decide)
    (by decide +kernel)
  obtain ⟨M, h1, h2, -⟩ := h (by decide)
  exact ⟨M, h1, h2⟩

/-- For the index `(0, 0)` the matrix of the code is singular, over every field: its first and last
rows agree. -/
theorem C49_zero_index_singular [RootOps K] : ∃ M : Mat4 K, splitMap (0, 0) = some M ∧
    ThPt.baseChange ⟨1, 0, -1, 0⟩ M = ThPt.zero ∧ ¬ Function.Injective fun P : ThPt K => P.baseChange M := by
  have e : ThPt.baseChange ⟨1, 0, -1, 0⟩ (⟨⟨1, RootOps.zeta, 1, RootOps.zeta⟩, ⟨1, -RootOps.zeta, 1, RootOps.zeta⟩,
      ⟨1, RootOps.zeta, 1, -RootOps.zeta⟩, ⟨1, RootOps.zeta, 1, RootOps.zeta⟩⟩ : Mat4 K) = ThPt.zero := by
    simp only [ThPt.baseChange, ThPt.dot, ThPt.zero, ThPt.mk.injEq]
    refine ⟨?_, ?_, ?_, ?_⟩ <;> ring
  refine ⟨_, rfl, e, fun hi => ?_⟩
  have : (⟨1, 0, -1, 0⟩ : ThPt K) = ThPt.zero := hi (by
    simp only [e]
    simp only [ThPt.baseChange, ThPt.dot, ThPt.zero, mul_zero, add_zero])
  exact one_ne_zero (congrArg ThPt.X this)

/-- The claim of C49 fails at `(0, 0)`: a null point whose only vanishing even constant is that one is
not mapped to a product. -/
theorem C49_zero_index_fails : ∃ (O : ThPt F29) (M : Mat4 F29),
    (∀ c' i', Even (parity c' i') → (evenConst O c' i' = 0 ↔ (c', i') = (0, 0))) ∧
      splittingMatrix O = some M ∧
      (O.baseChange M).X * (O.baseChange M).T ≠ (O.baseChange M).Y * (O.baseChange M).Z := by
  refine ⟨⟨25, 25, 22, 8⟩, ⟨⟨1, 12, 1, 12⟩, ⟨1, -12, 1, 12⟩, ⟨1, 12, 1, -12⟩, ⟨1, 12, 1, 12⟩⟩, by decide +kernel, ?_,
    by decide +kernel⟩
  rw [splittingMatrix, identify_eq (c := 0) (i := 0) (by decide) (by decide +kernel)]
  rfl

/-- When no even constant vanishes the code uses the matrix for `(0, 0)` without complaint. -/
theorem C49_no_zero_is_silent [DecidableEq K] {O : ThPt K}
    (h : ∀ c i, Even (parity c i) → evenConst O c i ≠ 0) : identifyEvenIndex O = (0, 0) := by
  have : ∀ (l : List (Fin 4 × Fin 4)), (∀ x ∈ l, x ∈ evenIndices) → l.foldl (fun r ci =>
      if level22 O ci.1 ci.2 = 0 then (r.1 ||| ci.1, r.2 ||| ci.2) else r) (0, 0) = (0, 0) := by
    intro l
    induction l with
    | nil => intro _; rfl
    | cons x l ih =>
      intro hl
      have hx := h x.1 x.2 ((mem_evenIndices _ _).mp (hl x List.mem_cons_self))
      rw [List.foldl_cons, level22_eq, if_neg hx]
      exact ih fun y hy => hl y (List.mem_cons_of_mem _ hy)
  exact this evenIndices fun _ hx => hx

example : identifyEvenIndex (⟨15, 7, 7, 26⟩ : ThPt F29) = (0, 0) :=
  C49_no_zero_is_silent (by decide +kernel)

/-! ### C50: Montgomery curves -/

/-- Coefficient and points depend on the projective classes only. -/
theorem C50_projective {c : K} (hc : c ≠ 0) (d : K) (o u : K × K) :
    nullToMontCoeff (c * o.1, c * o.2) = nullToMontCoeff o ∧
      (thetaToMontPoint (c * o.1, c * o.2) (d * u.1, d * u.2)).X = c * d * (thetaToMontPoint o u).X ∧
      (thetaToMontPoint (c * o.1, c * o.2) (d * u.1, d * u.2)).Z = c * d * (thetaToMontPoint o u).Z := by
  rw [thetaToMont_scale]
  exact ⟨coeff_scale hc o, rfl, rfl⟩

example : nullToMontCoeff ((3 * 5, 3 * 7) : F29 × F29) = nullToMontCoeff (5, 7) :=
  (C50_projective (K := F29) (c := 3) (by decide +kernel) 1 (5, 7) (1, 1)).1

/-- The null point goes to the point at infinity, and only multiples of it do. -/
theorem C50_null_to_infinity (h2 : (2 : K) ≠ 0) {o u : K × K} (ha : o.1 ≠ 0) (hb : o.2 ≠ 0) :
    ((thetaToMontPoint o o).Z = 0 ∧ (thetaToMontPoint o o).X ≠ 0) ∧
      ((thetaToMontPoint o u).Z = 0 ↔ ∃ c, u = (c * o.1, c * o.2)) ∧
      (u ≠ (0, 0) → (thetaToMontPoint o u).X ≠ 0 ∨ (thetaToMontPoint o u).Z ≠ 0) := by
  obtain ⟨x, z⟩ := u
  refine ⟨⟨?_, ?_⟩, ⟨fun h => ⟨x / o.1, ?_⟩, ?_⟩, fun h => ?_⟩
  · simp only [thetaToMontPoint]; ring
  · simp only [thetaToMontPoint]
    rw [show o.1 * o.2 + o.2 * o.1 = 2 * (o.1 * o.2) by ring]
    exact mul_ne_zero h2 (mul_ne_zero ha hb)
  · simp only [thetaToMontPoint] at h
    simp only [Prod.mk.injEq]
    constructor
    · field_simp
    · field_simp; linear_combination h
  · rintro ⟨c, h⟩
    simp only [Prod.mk.injEq] at h
    simp only [thetaToMontPoint, h.1, h.2]; ring
  · by_contra hc
    push Not at hc
    simp only [thetaToMontPoint] at hc
    apply h
    have hz : o.1 * z = 0 := by
      apply (mul_eq_zero.mp (_ : (2 : K) * (o.1 * z) = 0)).resolve_left h2
      linear_combination hc.1 + hc.2
    have hx : o.2 * x = 0 := by
      apply (mul_eq_zero.mp (_ : (2 : K) * (o.2 * x) = 0)).resolve_left h2
      linear_combination hc.1 - hc.2
    rw [(mul_eq_zero.mp hz).resolve_left ha, (mul_eq_zero.mp hx).resolve_left hb]

example := C50_null_to_infinity (K := F29) (o := (5, 7)) (u := (1, 2)) (by decide +kernel) (by decide +kernel)
  (by decide +kernel)

/-- A null point in general position gives a nonsingular curve. -/
theorem C50_curve [DecidableEq K] (h2 : (2 : K) ≠ 0) {o : K × K} (ho : Null1 o) :
    ∃ E : Crv K, nullToMont o = some E ∧ E.Good ∧ E.A = nullToMontCoeff o := by
  obtain ⟨a, b⟩ := o
  obtain ⟨ha, hb, hs, hd⟩ := ho
  simp only at ha hb hs hd
  have hs' : a * a + b * b ≠ 0 := by convert hs using 1; ring
  have hd' : a * a - b * b ≠ 0 := by convert hd using 1; ring
  have h4 := four_ne h2
  have e1 : nullToMontCoeff (a, b) - 2 = -(4 * a ^ 4) / ((a * a + b * b) * (a * a - b * b)) := by
    simp only [nullToMontCoeff]; field_simp; ring
  have e2 : nullToMontCoeff (a, b) + 2 = -(4 * b ^ 4) / ((a * a + b * b) * (a * a - b * b)) := by
    simp only [nullToMontCoeff]; field_simp; ring
  have n1 : nullToMontCoeff (a, b) - 2 ≠ 0 := by
    rw [e1]
    exact div_ne_zero (neg_ne_zero.mpr (mul_ne_zero h4 (pow_ne_zero 4 ha))) (mul_ne_zero hs' hd')
  have n2 : nullToMontCoeff (a, b) + 2 ≠ 0 := by
    rw [e2]
    exact div_ne_zero (neg_ne_zero.mpr (mul_ne_zero h4 (pow_ne_zero 4 hb))) (mul_ne_zero hs' hd')
  refine ⟨⟨nullToMontCoeff (a, b), (nullToMontCoeff (a, b) + 2) / 2 / 2⟩, ?_, ⟨h2, ?_, ?_⟩, rfl⟩
  · rw [nullToMont, Crv.new, if_neg (sub_ne_zero.mp n1), if_neg n2]
  · intro h
    simp only at h
    exact mul_ne_zero n1 n2 (by linear_combination h)
  · simp only; field_simp; norm_num

example := C50_curve (K := F29) (o := (5, 7)) (by decide +kernel)
  ⟨by decide +kernel, by decide +kernel, by decide +kernel, by decide +kernel⟩

/-- Reading off the two curves and the points on them commutes with doubling: the theta point
`double P` is read as the `x`-only doubles of what `P` is read as. -/
theorem C50_doubling [DecidableEq K] (h2 : (2 : K) ≠ 0) {O P : ThPt K} (hO : ThNull O)
    (pO : O.X * O.T = O.Y * O.Z) (pP : P.X * P.T = P.Y * P.Z) {E3 E4 : Crv K}
    (h3 : nullToMont (splitTheta O).1 = some E3) (h4 : nullToMont (splitTheta O).2 = some E4) :
    let D := (ThStr.new O).double P
    let m := thetaToMontPoint (splitTheta O).1 (splitTheta P).1
    let m' := thetaToMontPoint (splitTheta O).1 (splitTheta D).1
    let w := thetaToMontPoint (splitTheta O).2 (splitTheta P).2
    let w' := thetaToMontPoint (splitTheta O).2 (splitTheta D).2
    D.X * D.T = D.Y * D.Z ∧ (E3.xDbl m.X m.Z).1 * m'.Z = (E3.xDbl m.X m.Z).2 * m'.X ∧
      (E4.xDbl w.X w.Z).1 * w'.Z = (E4.xDbl w.X w.Z).2 * w'.X := by
  obtain ⟨o, o', rfl⟩ := tensor_of_prod pO
  obtain ⟨u, v, rfl⟩ := tensor_of_prod pP
  have hD := double_tensor hO u v
  generalize (ThStr.new (ThPt.tensor o o')).double (ThPt.tensor u v) = D at *
  obtain ⟨c, hc, rfl⟩ := hD
  have crv : ∀ {A : K} {E : Crv K}, Crv.new A = some E → E.A = A ∧ 4 * E.A24 = E.A + 2 := by
    intro A E h
    rw [Crv.new] at h
    split at h
    · cases h
    · split at h
      · cases h
      · cases h
        exact ⟨rfl, by simp only; field_simp; norm_num⟩
  have k3 := crv h3
  have k4 := crv h4
  refine ⟨?_, ?_, ?_⟩
  · simp only [ThPt.tensor, ThPt.scale]; ring
  · have := split_dbl h2 hO.right (c := o.1) (d := u.1) (e := c * (dbl1 o u).1) hO.left.a E3
      (by simpa [splitTheta, ThPt.tensor] using k3.1) k3.2 v
    simpa only [splitTheta, ThPt.tensor, ThPt.scale, mul_assoc] using this
  · have := split_dbl h2 hO.left (c := o'.2) (d := v.2) (e := c * (dbl1 o' v).2) hO.right.b E4
      (by simpa [splitTheta, ThPt.tensor, mul_comm] using k4.1) k4.2 u
    have e1 : ∀ a b : K × K, (splitTheta (ThPt.tensor a b)).2 = (b.2 * a.1, b.2 * a.2) := by
      intro a b; simp only [splitTheta, ThPt.tensor, mul_comm]
    have e2 : ∀ a b : K × K, (splitTheta ((ThPt.tensor a b).scale c)).2 = (c * b.2 * a.1, c * b.2 * a.2) := by
      intro a b
      simp only [splitTheta, ThPt.tensor, ThPt.scale, Prod.mk.injEq]
      constructor <;> ring
    simp only [e1, e2]
    exact this

example : ∃ E3 E4 : Crv F29, nullToMont (splitTheta (⟨23, 10, 25, 26⟩ : ThPt F29)).1 = some E3 ∧
    nullToMont (splitTheta (⟨23, 10, 25, 26⟩ : ThPt F29)).2 = some E4 ∧
    let D := (ThStr.new (⟨23, 10, 25, 26⟩ : ThPt F29)).double ⟨1, 2, 3, 6⟩
    D.X * D.T = D.Y * D.Z := by
  obtain ⟨E3, h3, -⟩ := C50_curve (K := F29) (o := (splitTheta ⟨23, 10, 25, 26⟩).1) (by decide +kernel)
    ⟨by decide +kernel, by decide +kernel, by decide +kernel, by decide +kernel⟩
  obtain ⟨E4, h4, -⟩ := C50_curve (K := F29) (o := (splitTheta ⟨23, 10, 25, 26⟩).2) (by decide +kernel)
    ⟨by decide +kernel, by decide +kernel, by decide +kernel, by decide +kernel⟩
  refine ⟨E3, E4, h3, h4, ?_⟩
  exact (C50_doubling (by decide +kernel)
    ⟨⟨by decide +kernel, by decide +kernel, by decide +kernel, by decide +kernel⟩,
     ⟨by decide +kernel, by decide +kernel, by decide +kernel, by decide +kernel⟩⟩
    (by decide +kernel) (by decide +kernel) h3 h4).1

end Festa
