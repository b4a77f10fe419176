import Verif.Lemmas.ClosedNet
import Verif.Lemmas.WeilStep
/-! The chain of (2,2)-isogenies under an extension of the field. -/
namespace Festa
open WeierstrassCurve.Affine
variable {K L : Type*} [Field K] [Field L] (σ : K →+* L)

/-- The quadruple over the larger field. -/
def ThPt.up (P : ThPt K) : ThPt L := ⟨σ P.X, σ P.Y, σ P.Z, σ P.T⟩

/-- The matrix over the larger field. -/
def Mat4.up (M : Mat4 K) : Mat4 L := ⟨M.r0.up σ, M.r1.up σ, M.r2.up σ, M.r3.up σ⟩

/-- The structure over the larger field. -/
def ThStr.up (S : ThStr K) : ThStr L := ⟨S.null.up σ, σ S.y0, σ S.z0, σ S.t0, σ S.Y0, σ S.Z0, σ S.T0⟩

/-- The pair over the larger field. -/
def pup (u : K × K) : L × L := (σ u.1, σ u.2)

theorem up_had (P : ThPt K) : P.had.up σ = (P.up σ).had := by
  simp only [ThPt.up, ThPt.had, map_add, map_sub]

theorem up_sqTheta (P : ThPt K) : P.sqTheta.up σ = (P.up σ).sqTheta := by
  simp only [ThPt.sqTheta, up_had]
  simp only [ThPt.up, map_mul]

theorem up_X (P : ThPt K) : (P.up σ).X = σ P.X := rfl
theorem up_Y (P : ThPt K) : (P.up σ).Y = σ P.Y := rfl
theorem up_Z (P : ThPt K) : (P.up σ).Z = σ P.Z := rfl
theorem up_T (P : ThPt K) : (P.up σ).T = σ P.T := rfl

theorem up_new (O : ThPt K) : (ThStr.new O).up σ = ThStr.new (O.up σ) := by
  simp only [ThStr.new, ThStr.up, ← up_sqTheta, up_X, up_Y, up_Z, up_T, map_mul, map_inv₀]

theorem up_double (S : ThStr K) (P : ThPt K) : (S.double P).up σ = (S.up σ).double (P.up σ) := by
  have e : ∀ a b c d : K, ThPt.had ⟨σ a, σ b, σ c, σ d⟩ = (ThPt.had ⟨a, b, c, d⟩).up σ := fun a b c d => (up_had σ ⟨a, b, c, d⟩).symm
  simp only [ThStr.double, ← up_sqTheta, ThStr.up, up_X, up_Y, up_Z, up_T, ← map_mul, e]
  rfl

theorem up_doubleIter (S : ThStr K) (P : ThPt K) (n : ℕ) : (S.doubleIter P n).up σ = (S.up σ).doubleIter (P.up σ) n := by
  induction n generalizing P with
  | zero => rfl
  | succ n ih =>
    have := ih (S.double P)
    rw [up_double] at this
    exact this

theorem up_coeffs (O T1 T2 : ThPt K) : twoIsoCoeffs (ThStr.new (O.up σ)) (T1.up σ) (T2.up σ) =
    ((twoIsoCoeffs (ThStr.new O) T1 T2).1.up σ, σ (twoIsoCoeffs (ThStr.new O) T1 T2).2.1,
      σ (twoIsoCoeffs (ThStr.new O) T1 T2).2.2.1, σ (twoIsoCoeffs (ThStr.new O) T1 T2).2.2.2) := by
  rw [← up_new]
  simp only [twoIsoCoeffs, ← up_sqTheta, up_X, up_Y, up_Z, up_T, ThStr.up, ← map_mul, ← map_inv₀]
  simp only [ThPt.up, map_one]

theorem up_image (h0 h1 : Bool) (k : K × K × K) (P : ThPt K) :
    (twoIsoImage h0 h1 k P).up σ = twoIsoImage h0 h1 (σ k.1, σ k.2.1, σ k.2.2) (P.up σ) := by
  cases h0 <;> cases h1 <;> simp only [twoIsoImage, if_true, Bool.false_eq_true, if_false, up_had, ← up_sqTheta, up_X, up_Y, up_Z, up_T]
  all_goals simp only [ThPt.up, map_mul]
  all_goals
    have e : (⟨σ P.X, σ P.Y, σ P.Z, σ P.T⟩ : ThPt L) = P.up σ := rfl
    simp only [e, ← up_had, ← up_sqTheta, up_X, up_Y, up_Z, up_T]

theorem up_isoNull (O T1 T2 : ThPt K) : (isoNull O T1 T2).up σ = isoNull (O.up σ) (T1.up σ) (T2.up σ) := by
  rw [isoNull, isoNull, up_coeffs, up_had]

theorem up_isoImage (O T1 T2 P : ThPt K) : (isoImage O T1 T2 P).up σ = isoImage (O.up σ) (T1.up σ) (T2.up σ) (P.up σ) := by
  rw [isoImage, isoImage, up_coeffs, up_image]

theorem up_preLast (O T1 T2 P : ThPt K) : (preLast O T1 T2 P).up σ = preLast (O.up σ) (T1.up σ) (T2.up σ) (P.up σ) := by
  rw [preLast, preLast, ← up_new, ← up_double, ← up_double, up_new, up_coeffs, up_image]

theorem up_toProdNull (T1 T2 : ThPt K) : (toProdNull T1 T2).up σ = toProdNull (T1.up σ) (T2.up σ) := by
  simp only [toProdNull, ← up_had, ← up_sqTheta, up_X, up_Y, up_Z, up_T, ← map_mul, ← map_inv₀]
  simp only [ThPt.up, map_one]

theorem up_toProdImage (T1 T2 P : ThPt K) : (toProdImage T1 T2 P).up σ = toProdImage (T1.up σ) (T2.up σ) (P.up σ) := by
  simp only [toProdImage, ← up_had, ← up_sqTheta, up_X, up_Y, up_Z, up_T, ← map_mul, ← map_inv₀]
  simp only [ThPt.up]

theorem up_chainNull : ∀ (r : ℕ) (O T1 T2 : ThPt K), (chainNull r O T1 T2).up σ = chainNull r (O.up σ) (T1.up σ) (T2.up σ)
  | 0, O, T1, T2 => by simp only [chainNull, up_toProdNull, up_preLast]
  | r + 1, O, T1, T2 => by
    simp only [chainNull, ← up_new, ← up_doubleIter, ← up_isoNull, ← up_isoImage]
    exact up_chainNull r _ _ _

theorem up_chainImg : ∀ (r : ℕ) (O T1 T2 X : ThPt K),
    (chainImg r O T1 T2 X).up σ = chainImg r (O.up σ) (T1.up σ) (T2.up σ) (X.up σ)
  | 0, O, T1, T2, X => by simp only [chainImg, up_toProdImage, up_preLast]
  | r + 1, O, T1, T2, X => by
    simp only [chainImg, ← up_new, ← up_doubleIter, ← up_isoNull, ← up_isoImage]
    exact up_chainImg r _ _ _ _

theorem up_baseChange (P : ThPt K) (M : Mat4 K) : (P.baseChange M).up σ = (P.up σ).baseChange (M.up σ) := by
  simp only [ThPt.baseChange, ThPt.dot, ThPt.up, Mat4.up, map_add, map_mul]

theorem up_tensor (u v : K × K) : (ThPt.tensor u v).up σ = ThPt.tensor (pup σ u) (pup σ v) := by
  simp only [ThPt.tensor, ThPt.up, pup, map_mul]

theorem up_scale (c : K) (P : ThPt K) : (P.scale c).up σ = (P.up σ).scale (σ c) := by
  simp only [ThPt.scale, ThPt.up, map_mul]

theorem ThPt.Same.up {P Q : ThPt K} (h : P.Same Q) : (P.up σ).Same (Q.up σ) := by
  obtain ⟨c, hc, rfl⟩ := h
  exact ⟨σ c, (map_ne_zero σ).mpr hc, up_scale σ c P⟩

theorem up_get (P : ThPt K) (i : Fin 4) : (P.up σ).get i = σ (P.get i) := by
  fin_cases i <;> rfl

theorem up_level22 (O : ThPt K) (c i : Fin 4) : level22 (O.up σ) c i = σ (level22 O c i) := by
  have e : ∀ (u : K) (b : Bool), cond' (σ u) (-σ u) b = σ (cond' u (-u) b) := by
    intro u b; cases b <;> simp [cond']
  simp only [level22, List.foldl, up_get, ← map_mul, e, ← map_add, ← map_zero σ]

theorem up_evenConst (O : ThPt K) (c i : Fin 4) : evenConst (O.up σ) c i = σ (evenConst O c i) := by
  simp only [evenConst, up_get, map_sum, map_mul, map_pow, map_neg, map_one]

theorem up_zero_iff {x : K} : σ x = 0 ↔ x = 0 := map_eq_zero σ

theorem up_index [DecidableEq K] [DecidableEq L] (O : ThPt K) : identifyEvenIndex (O.up σ) = identifyEvenIndex O := by
  simp only [identifyEvenIndex, up_level22, up_zero_iff]

theorem up_splitMap [RootOps K] [RootOps L] (hz : (RootOps.zeta : L) = σ RootOps.zeta) (ci : Fin 4 × Fin 4) :
    (splitMap ci : Option (Mat4 L)) = (splitMap ci : Option (Mat4 K)).map (Mat4.up σ) := by
  obtain ⟨c, i⟩ := ci
  fin_cases c <;> fin_cases i <;>
    simp [splitMap, Mat4.up, ThPt.up, hz]

theorem up_splitting [DecidableEq K] [DecidableEq L] [RootOps K] [RootOps L] (hz : (RootOps.zeta : L) = σ RootOps.zeta) {O : ThPt K}
    {M : Mat4 K} (h : splittingMatrix O = some M) : splittingMatrix (O.up σ) = some (M.up σ) := by
  rw [splittingMatrix, up_index, up_splitMap σ hz]
  rw [splittingMatrix] at h
  rw [h]; rfl

theorem ThPt.NZ.up {P : ThPt K} (h : P.NZ) : (P.up σ).NZ :=
  ⟨(map_ne_zero σ).mpr h.X, (map_ne_zero σ).mpr h.Y, (map_ne_zero σ).mpr h.Z, (map_ne_zero σ).mpr h.T⟩

theorem ThNull.up {O : ThPt K} (h : ThNull O) : ThNull (O.up σ) := ⟨h.nz.up σ, by rw [← up_sqTheta]; exact h.dual.up σ⟩

theorem NoneVanishes.up {O : ThPt K} (h : NoneVanishes O) : NoneVanishes (O.up σ) := fun c i hc => by
  rw [up_evenConst]; exact (map_ne_zero σ).mpr (h c i hc)

theorem OneVanishes.up {O : ThPt K} (h : OneVanishes O) : OneVanishes (O.up σ) := by
  obtain ⟨c, i, h1, h2, h3⟩ := h
  refine ⟨c, i, h1, h2, fun c' i' h' => ?_⟩
  rw [up_evenConst, up_zero_iff, h3 c' i' h']

theorem Kernel8.up {O T1 T2 : ThPt K} (h : Kernel8 O T1 T2) : Kernel8 (O.up σ) (T1.up σ) (T2.up σ) := by
  constructor <;> simp only [← up_new, ← up_double, ← up_sqTheta, up_X, up_Y, up_Z, up_T, up_zero_iff, ne_eq]
  exacts [h.y1, h.t1, h.z2, h.t2, h.nx1, h.nx2, h.ny2]

theorem LastKernel.up {T1 T2 D1 D2 : ThPt K} (h : LastKernel T1 T2 D1 D2) :
    LastKernel (T1.up σ) (T2.up σ) (D1.up σ) (D2.up σ) := by
  constructor <;> simp only [← up_sqTheta, up_X, up_Y, up_Z, up_T, up_zero_iff, ne_eq]
  exacts [h.y1, h.t1, h.z2, h.t2, h.nx1, h.nx2, h.ny2]

theorem ProdChain.up : ∀ {r : ℕ} {O T1 T2 : ThPt K}, ProdChain r O T1 T2 → ProdChain r (O.up σ) (T1.up σ) (T2.up σ)
  | 0, _, _, _, h => h.elim
  | 1, _, _, _, h => h.elim
  | 2, O, T1, T2, h => by
    obtain ⟨h1, h2, h3, h4, h5, h6⟩ := h
    refine ⟨h1.up σ, h2.up σ, ?_, ?_, ?_, ?_⟩
    · rw [← up_new, ← up_double, ← up_double]; exact h3.up σ
    · rw [← up_new, ← up_double, ← up_double, ← up_isoNull]; exact h4.up σ
    · rw [← up_new, ← up_double, ← up_double, ← up_isoImage, ← up_isoImage, ← up_isoImage, ← up_isoImage]; exact h5.up σ
    · rw [← up_new, ← up_double, ← up_double, ← up_isoImage, ← up_isoImage, ← up_isoNull, ← up_isoNull]; exact h6.up σ
  | r + 3, O, T1, T2, h => by
    obtain ⟨h1, h2, h3, h4⟩ := h
    refine ⟨h1.up σ, h2.up σ, ?_, ?_⟩
    · rw [← up_new, ← up_doubleIter, ← up_doubleIter]; exact h3.up σ
    · rw [← up_new, ← up_doubleIter, ← up_doubleIter, ← up_isoNull, ← up_isoImage, ← up_isoImage]; exact ProdChain.up h4

/-! ### The gluing -/

theorem up_gcs (e l x : K) : gcs (σ e) (σ l) (σ x) = σ (gcs e l x) := by simp only [gcs, map_div₀, map_sub]
theorem up_gcy (m w y : K) : gcy (σ m) (σ w) (σ y) = σ (gcy m w y) := by simp only [gcy, map_div₀, map_mul, map_pow, map_ofNat]

section
variable [DecidableEq K] [DecidableEq L] {A : K}

theorem up_U0 (e l : K) (P : MPoint A) : U0 (σ e) (σ l) (mapHom σ P) = σ (U0 e l P) := by
  rcases P with _ | ⟨x, y, k⟩
  · exact (map_one σ).symm
  · change gcs (σ e) (σ l) (σ x) - 1 = σ (gcs e l x - 1)
    rw [up_gcs, map_sub, map_one]

theorem up_U1 (e l m : K) (P : MPoint A) : U1 (σ e) (σ l) (σ m) (mapHom σ P) = σ (U1 e l m P) := by
  rcases P with _ | ⟨x, y, k⟩
  · rfl
  · change σ m * (gcs (σ e) (σ l) (σ x) + 1) = σ (m * (gcs e l x + 1))
    rw [up_gcs, map_mul, map_add, map_one]

theorem up_UY (m w : K) (P : MPoint A) : UY (σ m) (σ w) (mapHom σ P) = σ (UY m w P) := by
  rcases P with _ | ⟨x, y, k⟩
  · exact (map_zero σ).symm
  · exact up_gcy σ m w y

/-- The curve over the larger field. -/
def Crv.up (E : Crv K) : Crv L := ⟨σ E.A, σ E.A24⟩
/-- The product over the larger field. -/
def EProd.up (E : EProd K) : EProd L := ⟨E.E1.up σ, E.E2.up σ⟩

omit [DecidableEq K] [DecidableEq L] in
theorem Crv.Good.up {E : Crv K} (h : E.Good) : (E.up σ).Good := by
  refine ⟨?_, ?_, ?_⟩
  · have := (map_ne_zero σ).mpr h.two; rwa [map_ofNat] at this
  · intro e
    apply h.disc
    apply σ.injective
    rw [map_mul, map_ofNat]; exact e
  · have := congrArg σ h.a24
    simpa [Crv.up, map_ofNat σ 4, map_ofNat σ 2] using this

variable {A' : K}

theorem up_gD (e l m e' l' m' : K) (p : MPoint A) (p' : MPoint A') :
    gD (σ e) (σ l) (σ m) (σ e') (σ l') (σ m') (mapHom σ p) (mapHom σ p') = σ (gD e l m e' l' m' p p') := by
  simp only [gD, up_U0, up_U1, map_div₀, map_mul, map_add, map_sub, map_pow]

theorem up_gF (e l m e' l' m' : K) (p : MPoint A) (p' : MPoint A') :
    gF (σ e) (σ l) (σ m) (σ e') (σ l') (σ m') (mapHom σ p) (mapHom σ p') = σ (gF e l m e' l' m' p p') := by
  simp only [gF, up_U0, up_U1, map_div₀, map_mul, map_add, map_pow, map_ofNat]

theorem up_gW (D F e l m w e' l' m' w' : K) (p : MPoint A) (p' : MPoint A') :
    gW (σ D) (σ F) (σ e) (σ l) (σ m) (σ w) (σ e') (σ l') (σ m') (σ w') (mapHom σ p) (mapHom σ p') =
      (gW D F e l m w e' l' m' w' p p').up σ := by
  simp only [gW, gw, up_U0, up_U1, up_UY, ThPt.up, map_div₀, map_mul, map_add, map_sub, map_pow, map_ofNat]

omit [DecidableEq K] [DecidableEq L] in
theorem up_gn (D F : K) : (gn D F).up σ = gn (σ D) (σ F) := by
  simp only [gn, ThPt.up, map_one, map_zero]

/-- The pair of points over the larger field. -/
def upPair (E : EProd K) (x : MPoint E.E1.A × MPoint E.E2.A) : MPoint (E.up σ).E1.A × MPoint (E.up σ).E2.A :=
  (mapHom σ x.1, mapHom σ x.2)

theorem up_glueW (E : EProd K) (p1 q1 : MPoint E.E1.A) (p2 q2 : MPoint E.E2.A) (n : ℕ) (e l m w e' l' m' w' : K)
    (x : MPoint E.E1.A × MPoint E.E2.A) :
    glueW (E.up σ) (mapHom σ p1) (mapHom σ q1) (mapHom σ p2) (mapHom σ q2) n (σ e) (σ l) (σ m) (σ w) (σ e') (σ l') (σ m') (σ w')
      (upPair σ E x) = (glueW E p1 q1 p2 q2 n e l m w e' l' m' w' x).up σ := by
  have e1 := up_gD σ e l m e' l' m' (2 ^ (n - 1) • p1) (2 ^ (n - 1) • p2)
  have e2 := up_gF σ e l m e' l' m' (2 ^ (n - 1) • q1) (2 ^ (n - 1) • q2)
  rw [map_nsmul, map_nsmul] at e1 e2
  unfold glueW upPair
  refine Eq.trans ?_ (up_gW σ _ _ _ _ _ _ _ _ _ _ _ _)
  rw [← e1, ← e2]
  rfl

theorem GlueFrm.up {E : EProd K} {p1 q1 : MPoint E.E1.A} {p2 q2 : MPoint E.E2.A} {n : ℕ} {O T1 T2 : ThPt K}
    {e l m w e' l' m' w' : K} (h : GlueFrm E p1 q1 p2 q2 n O T1 T2 e l m w e' l' m' w') :
    GlueFrm (E.up σ) (mapHom σ p1) (mapHom σ q1) (mapHom σ p2) (mapHom σ q2) n (O.up σ) (T1.up σ) (T2.up σ)
      (σ e) (σ l) (σ m) (σ w) (σ e') (σ l') (σ m') (σ w') := by
  refine ⟨?_, ?_, ?_⟩
  · have e1 := up_gD σ e l m e' l' m' (2 ^ (n - 1) • p1) (2 ^ (n - 1) • p2)
    have e2 := up_gF σ e l m e' l' m' (2 ^ (n - 1) • q1) (2 ^ (n - 1) • q2)
    rw [map_nsmul, map_nsmul] at e1 e2
    rw [h.null, up_had, up_gn, ← e1, ← e2]
    rfl
  · have := h.fst.up σ
    rw [up_had, ← up_glueW] at this
    exact this
  · have := h.snd.up σ
    rw [up_had, ← up_glueW] at this
    exact this

omit [DecidableEq K] [DecidableEq L] in
theorem Fac.up {A e l m : K} (h : Fac A e l m) : Fac (σ A) (σ e) (σ l) (σ m) := by
  have f : ∀ {x : K}, x ≠ 0 → σ x ≠ 0 := fun hx => (map_ne_zero σ).mpr hx
  refine ⟨?_, ?_, ?_, ?_, f h.nL, f h.nm, ?_, ?_⟩
  · have := f h.two; rwa [map_ofNat] at this
  · simpa using congrArg σ h.root
  · simpa [map_ofNat σ 2, map_ofNat σ 3] using congrArg σ h.der
  · simpa [map_ofNat σ 2, map_ofNat σ 3] using congrArg σ h.cub
  · simpa using f h.np
  · simpa using f h.nq

/-- The submatrices are determined by the rest. -/
theorem FacPts.mk' {E : Crv K} (hE : E.Good) {p q : MPoint E.A} {e l m w : K} (fac : Fac E.A e l m) (yT : w ≠ 0)
    (cT : w * w = (e + l) * (e + l) * (e + l) + E.A * (e + l) * (e + l) + (e + l))
    (tp : ∃ k, 2 • p = (.some (e + l) w k : MPoint E.A))
    (tq : ∃ x y k, 2 • q = (.some x y k : MPoint E.A) ∧ gcs e l x * (1 + m) = 1 - m)
    (fp : ∃ k, 4 • p = (.some e 0 k : MPoint E.A))
    (fq : ∃ x k, 4 • q = (.some x 0 k : MPoint E.A) ∧ gcs e l x * (1 - m ^ 2) = 1 + m ^ 2) : FacPts E p q e l m w := by
  refine ⟨fac, yT, cT, tp, tq, fp, fq, ?_⟩
  obtain ⟨k, tp⟩ := tp
  obtain ⟨x, y, k1, tq, t1⟩ := tq
  obtain ⟨k2, fp⟩ := fp
  obtain ⟨x', k3, fq, t2⟩ := fq
  intro a b ha hb
  have f : ∀ r : MPoint E.A, 4 • r = 2 • (2 • r) := fun r => by rw [← mul_nsmul]
  rw [f, tp] at fp
  rw [f, tq] at fq
  rw [tp] at ha
  rw [tq] at hb
  rw [submatrix_eq hE ha fp, submatrix_eq hE hb fq, add_sub_cancel_left]
  obtain ⟨-, hL', -, -⟩ := four_tangent hE.two fq
  have hl := fac.nL
  have hm1 : 1 + m ≠ 0 := fun h0 => fac.nq (by linear_combination (1 - m) * h0)
  rw [gcs, div_mul_eq_mul_div, div_eq_iff hl] at t1 t2
  refine subOK_of hE.two fac.nL hL' fac.nm fac.nq ?_ ?_
  · linear_combination t2
  · linear_combination (1 - m) * t1 - t2

theorem FacPts.up {E : Crv K} (hE : E.Good) {p q : MPoint E.A} {e l m w : K} (h : FacPts E p q e l m w) :
    FacPts (E.up σ) (mapHom σ p) (mapHom σ q) (σ e) (σ l) (σ m) (σ w) := by
  refine FacPts.mk' (hE.up σ) (h.fac.up σ) ((map_ne_zero σ).mpr h.yT) ?_ ?_ ?_ ?_ ?_
  · have := congrArg σ h.cT
    simpa [Crv.up] using this
  · obtain ⟨k, e1⟩ := h.tp
    have := congrArg (mapHom σ) e1
    rw [map_nsmul] at this
    obtain ⟨k', e2⟩ := pt_congr (h := nonsing_map σ k) (map_add σ _ _) rfl
    exact ⟨k', this.trans e2⟩
  · obtain ⟨x, y, k, e1, e2⟩ := h.tq
    have := congrArg (mapHom σ) e1
    rw [map_nsmul] at this
    refine ⟨σ x, σ y, _, this, ?_⟩
    rw [up_gcs]
    simpa using congrArg σ e2
  · obtain ⟨k, e1⟩ := h.fp
    have := congrArg (mapHom σ) e1
    rw [map_nsmul] at this
    obtain ⟨k', e2⟩ := pt_congr (h := nonsing_map σ k) rfl (map_zero σ)
    exact ⟨k', this.trans e2⟩
  · obtain ⟨x, k, e1, e2⟩ := h.fq
    have := congrArg (mapHom σ) e1
    rw [map_nsmul] at this
    obtain ⟨k', e3⟩ := pt_congr (h := nonsing_map σ k) rfl (map_zero σ)
    refine ⟨σ x, k', this.trans e3, ?_⟩
    rw [up_gcs]
    simpa using congrArg σ e2

end

/-- The root routines over an algebraically closed field, by choice. -/
@[instance_reducible] noncomputable def closedRoots [IsAlgClosed L] (z : L) (hz : z * z = -1) (h2 : (2 : L) ≠ 0) : RootOps L := by
  classical
  have hs : ∀ a : L, IsSquare a := fun a => by
    obtain ⟨b, hb⟩ := IsAlgClosed.exists_pow_nat_eq a (n := 2) (by norm_num)
    exact ⟨b, by rw [← hb]; ring⟩
  exact
    { sqrt := fun a => ((hs a).choose, true)
      legendre := fun a => if a = 0 then 0 else 1
      zeta := z
      sqrt_sq := fun a _ => ⟨rfl, (hs a).choose_spec.symm⟩
      sqrt_nonsq := fun a h => absurd (hs a) h
      legendre_zero := fun a => by by_cases h : a = 0 <;> simp [h]
      legendre_one := fun a => by by_cases h : a = 0 <;> simp [h, hs a]
      legendre_neg := fun a => by
        refine ⟨fun h => ?_, fun h => absurd (hs a) h⟩
        by_cases h0 : a = 0 <;> simp [h0] at h
      zeta_sq := hz
      two_ne := h2 }

end Festa
