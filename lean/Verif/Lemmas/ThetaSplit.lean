import Verif.Lemmas.ThetaMore
import Mathlib.Tactic.FinCases
/-! The splitting matrices and the maps to Montgomery coordinates. -/
namespace Festa
variable {K : Type*} [Field K]

theorem level22_eq (O : ThPt K) (chi i : Fin 4) : level22 O chi i = evenConst O chi i := by
  have x0 : ∀ t : Fin 4, (0 : Fin 4) ^^^ t = t := by decide
  simp only [level22, evenConst, Fin.sum_univ_four, List.foldl]
  fin_cases chi <;> simp [chiEval, parity, cond']

theorem foldl_or (idx : Fin 4 × Fin 4) (h : idx ∈ evenIndices) :
    evenIndices.foldl (fun r ci => if ci = idx then (r.1 ||| ci.1, r.2 ||| ci.2) else r) (0, 0) = idx := by
  revert idx; decide

theorem mem_evenIndices (c i : Fin 4) : (c, i) ∈ evenIndices ↔ Even (parity c i) := by
  revert c i; decide

theorem identify_eq [DecidableEq K] {O : ThPt K} {c i : Fin 4} (hev : Even (parity c i))
    (h : ∀ c' i', Even (parity c' i') → (evenConst O c' i' = 0 ↔ (c', i') = (c, i))) :
    identifyEvenIndex O = (c, i) := by
  rw [← foldl_or (c, i) ((mem_evenIndices c i).mpr hev)]
  apply List.foldl_ext
  rintro r ⟨c', i'⟩ hm
  have := h c' i' ((mem_evenIndices c' i').mp hm)
  simp only [level22_eq, this]

/-- A multiple of the transposed matrix. -/
def Mat4.tr (s : K) (M : Mat4 K) : Mat4 K :=
  ⟨⟨s * M.r0.X, s * M.r1.X, s * M.r2.X, s * M.r3.X⟩, ⟨s * M.r0.Y, s * M.r1.Y, s * M.r2.Y, s * M.r3.Y⟩,
   ⟨s * M.r0.Z, s * M.r1.Z, s * M.r2.Z, s * M.r3.Z⟩, ⟨s * M.r0.T, s * M.r1.T, s * M.r2.T, s * M.r3.T⟩⟩

/-- Rows of length `1/s` that are orthogonal, and columns likewise, give a bijection. -/
theorem bij_of_tr (M : Mat4 K) (s : K) (h : ∀ P : ThPt K, (P.baseChange M).baseChange (M.tr s) = P)
    (h' : ∀ P : ThPt K, (P.baseChange (M.tr s)).baseChange M = P) :
    Function.Bijective fun P : ThPt K => P.baseChange M :=
  Function.bijective_iff_has_inverse.mpr ⟨fun P => P.baseChange (M.tr s), h, h'⟩

theorem splitMap_ok [RootOps K] (h2 : (2 : K) ≠ 0) (O : ThPt K) (c i : Fin 4) (hev : Even (parity c i))
    (hne : (c, i) ≠ (0, 0)) :
    ∃ M : Mat4 K, splitMap (c, i) = some M ∧ (Function.Bijective fun P : ThPt K => P.baseChange M) ∧
      (evenConst O c i = 0 → (O.baseChange M).X * (O.baseChange M).T = (O.baseChange M).Y * (O.baseChange M).Z) := by
  have h4 := four_ne h2
  have hm : (c, i) ∈ evenIndices.tail := by
    revert c i; decide
  simp only [evenIndices, List.tail, List.mem_cons, List.not_mem_nil, or_false, Prod.mk.injEq] at hm
  have perm : ∀ M : Mat4 K, (∀ P : ThPt K, (P.baseChange M).baseChange (M.tr 1) = P) →
      (∀ P : ThPt K, (P.baseChange (M.tr 1)).baseChange M = P) →
      Function.Bijective fun P : ThPt K => P.baseChange M := fun M h h' => bij_of_tr M 1 h h'
  have q : ∀ {x : K}, 2 * x = 0 → x = 0 := fun h => (mul_eq_zero.mp h).resolve_left h2
  rcases hm with ⟨rfl, rfl⟩ | ⟨rfl, rfl⟩ | ⟨rfl, rfl⟩ | ⟨rfl, rfl⟩ | ⟨rfl, rfl⟩ | ⟨rfl, rfl⟩ | ⟨rfl, rfl⟩ |
    ⟨rfl, rfl⟩ | ⟨rfl, rfl⟩
  case' inl => refine ⟨_, rfl, bij_of_tr _ 1 ?_ ?_, ?_⟩
  case' inr.inl => refine ⟨_, rfl, bij_of_tr _ 1 ?_ ?_, ?_⟩
  case' inr.inr.inl => refine ⟨_, rfl, bij_of_tr _ 1 ?_ ?_, ?_⟩
  case' inr.inr.inr.inl => refine ⟨_, rfl, bij_of_tr _ 4⁻¹ ?_ ?_, ?_⟩
  case' inr.inr.inr.inr.inl => refine ⟨_, rfl, bij_of_tr _ 1 ?_ ?_, ?_⟩
  case' inr.inr.inr.inr.inr.inl => refine ⟨_, rfl, bij_of_tr _ 4⁻¹ ?_ ?_, ?_⟩
  case' inr.inr.inr.inr.inr.inr.inl => refine ⟨_, rfl, bij_of_tr _ 4⁻¹ ?_ ?_, ?_⟩
  case' inr.inr.inr.inr.inr.inr.inr.inl => refine ⟨_, rfl, bij_of_tr _ 4⁻¹ ?_ ?_, ?_⟩
  case' inr.inr.inr.inr.inr.inr.inr.inr => refine ⟨_, rfl, bij_of_tr _ 1 ?_ ?_, ?_⟩
  all_goals first
    | (intro P; ext <;> simp only [ThPt.baseChange, ThPt.dot, Mat4.tr] <;> field_simp <;> ring)
    | skip
  all_goals
    intro h
    simp only [evenConst, Fin.sum_univ_four] at h
    simp [ThPt.get, parity] at h
    simp only [ThPt.baseChange, ThPt.dot]
    refine sub_eq_zero.mp (q ?_)
    first | linear_combination h | linear_combination -h | linear_combination 4 * h | linear_combination -4 * h

/-! ### Dimension one -/

theorem tensor_sq (u v : K × K) : (ThPt.tensor u v).sqTheta =
    ThPt.tensor (u.1 ^ 2 + u.2 ^ 2, u.1 ^ 2 - u.2 ^ 2) (v.1 ^ 2 + v.2 ^ 2, v.1 ^ 2 - v.2 ^ 2) := by
  simp only [ThPt.tensor, ThPt.sqTheta, ThPt.had, ThPt.mk.injEq]
  refine ⟨?_, ?_, ?_, ?_⟩ <;> ring

/-- Doubling in dimension one, on a null point `(a, b)`. -/
def dbl1 (o u : K × K) : K × K :=
  let s := (u.1 ^ 2 + u.2 ^ 2) ^ 2 / (o.1 ^ 2 + o.2 ^ 2)
  let d := (u.1 ^ 2 - u.2 ^ 2) ^ 2 / (o.1 ^ 2 - o.2 ^ 2)
  ((s + d) / o.1, (s - d) / o.2)

theorem double_tensor {o o' : K × K} (hO : ThNull (ThPt.tensor o o')) (u v : K × K) :
    (ThPt.tensor (dbl1 o u) (dbl1 o' v)).Same ((ThStr.new (ThPt.tensor o o')).double (ThPt.tensor u v)) := by
  refine ⟨_, mul_ne_zero hO.nz.X hO.dual.X, ?_⟩
  rw [double_eq hO]
  congr 1
  rw [tensor_sq, tensor_sq]
  simp only [ThPt.tensor, dbl1, ThPt.div, ThPt.mul, ThPt.had, ThPt.mk.injEq]
  simp only [div_eq_mul_inv, mul_inv]
  refine ⟨?_, ?_, ?_, ?_⟩ <;> ring

/-- The conditions on a null point in dimension one. -/
structure Null1 (o : K × K) : Prop where
  a : o.1 ≠ 0
  b : o.2 ≠ 0
  s : o.1 ^ 2 + o.2 ^ 2 ≠ 0
  d : o.1 ^ 2 - o.2 ^ 2 ≠ 0

theorem ThNull.left {o o' : K × K} (h : ThNull (ThPt.tensor o o')) : Null1 o := by
  have h' := h.dual
  rw [tensor_sq] at h'
  exact ⟨left_ne_zero_of_mul h.nz.X, left_ne_zero_of_mul h.nz.Z, left_ne_zero_of_mul h'.X,
    left_ne_zero_of_mul h'.Z⟩

theorem ThNull.right {o o' : K × K} (h : ThNull (ThPt.tensor o o')) : Null1 o' := by
  have h' := h.dual
  rw [tensor_sq] at h'
  exact ⟨right_ne_zero_of_mul h.nz.X, right_ne_zero_of_mul h.nz.Y, right_ne_zero_of_mul h'.X,
    right_ne_zero_of_mul h'.Y⟩

theorem mont_dbl (h2 : (2 : K) ≠ 0) {o : K × K} (ho : Null1 o) (E : Crv K) (hA : E.A = nullToMontCoeff o)
    (h24 : 4 * E.A24 = E.A + 2) (u : K × K) :
    ∃ c : K, c ≠ 0 ∧
      (E.xDbl (thetaToMontPoint o u).X (thetaToMontPoint o u).Z).1 = c * (thetaToMontPoint o (dbl1 o u)).X ∧
      (E.xDbl (thetaToMontPoint o u).X (thetaToMontPoint o u).Z).2 = c * (thetaToMontPoint o (dbl1 o u)).Z := by
  obtain ⟨a, b⟩ := o
  obtain ⟨x, z⟩ := u
  obtain ⟨ha, hb, hs, hd⟩ := ho
  simp only at ha hb hs hd
  have h4 := four_ne h2
  refine ⟨4 * (a * b) ^ 3, mul_ne_zero h4 (pow_ne_zero 3 (mul_ne_zero ha hb)), ?_⟩
  have e24 : E.A24 = -(b ^ 4) / ((a ^ 2 + b ^ 2) * (a ^ 2 - b ^ 2)) := by
    apply mul_left_cancel₀ h4
    have hs' : a * a + b * b ≠ 0 := by convert hs using 1; ring
    have hd' : a * a - b * b ≠ 0 := by convert hd using 1; ring
    rw [h24, hA]
    simp only [nullToMontCoeff]
    field_simp
    ring
  simp only [Crv.xDbl, e24, thetaToMontPoint, dbl1]
  constructor
  · field_simp
    ring
  · field_simp
    ring

theorem tensor_of_prod {P : ThPt K} (h : P.X * P.T = P.Y * P.Z) : ∃ u v, P = ThPt.tensor u v := by
  obtain ⟨x, y, z, t⟩ := P
  simp only at h
  simp only [ThPt.tensor, ThPt.mk.injEq]
  by_cases hx : x = 0
  · subst hx
    rcases mul_eq_zero.mp (by rw [← h, zero_mul] : y * z = 0) with rfl | rfl
    · exact ⟨(0, 1), (z, t), by simp⟩
    · exact ⟨(y, t), (0, 1), by simp⟩
  · refine ⟨(1, z / x), (x, y), by simp, by simp, by field_simp, ?_⟩
    field_simp
    linear_combination h

theorem thetaToMont_scale (c d : K) (o u : K × K) :
    thetaToMontPoint (c * o.1, c * o.2) (d * u.1, d * u.2) =
      ⟨c * d * (thetaToMontPoint o u).X, c * d * (thetaToMontPoint o u).Z⟩ := by
  simp only [thetaToMontPoint, PtX.mk.injEq]
  constructor <;> ring

theorem coeff_scale {c : K} (hc : c ≠ 0) (o : K × K) :
    nullToMontCoeff (c * o.1, c * o.2) = nullToMontCoeff o := by
  simp only [nullToMontCoeff]
  rw [← mul_div_mul_left (-((o.1 * o.1 + o.2 * o.2) * (o.1 * o.1 + o.2 * o.2) +
    (o.1 * o.1 - o.2 * o.2) * (o.1 * o.1 - o.2 * o.2))) _ (pow_ne_zero 4 hc)]
  congr 1 <;> ring

theorem xDbl_scale (E : Crv K) (c X Z : K) :
    E.xDbl (c * X) (c * Z) = (c ^ 4 * (E.xDbl X Z).1, c ^ 4 * (E.xDbl X Z).2) := by
  simp only [Crv.xDbl, Prod.mk.injEq]
  constructor <;> ring

/-- One factor of the doubling statement. -/
theorem split_dbl (h2 : (2 : K) ≠ 0) {o : K × K} (ho : Null1 o) {c d e : K} (hc : c ≠ 0) (E : Crv K)
    (hA : E.A = nullToMontCoeff (c * o.1, c * o.2)) (h24 : 4 * E.A24 = E.A + 2) (u : K × K) :
    let m := thetaToMontPoint (c * o.1, c * o.2) (d * u.1, d * u.2)
    let m' := thetaToMontPoint (c * o.1, c * o.2) (e * (dbl1 o u).1, e * (dbl1 o u).2)
    (E.xDbl m.X m.Z).1 * m'.Z = (E.xDbl m.X m.Z).2 * m'.X := by
  rw [coeff_scale hc] at hA
  obtain ⟨k, -, h1, h3⟩ := mont_dbl h2 ho E hA h24 u
  simp only [thetaToMont_scale, xDbl_scale, h1, h3]
  ring

end Festa
