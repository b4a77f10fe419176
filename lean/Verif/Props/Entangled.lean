import Verif.Lemmas.EntangledBasis
import Verif.Lemmas.Fr
import Verif.Lemmas.EntangledStart
import Verif.Lemmas.PairingTest
import Verif.Spec.TestField49
/-!
C42: `entangled_torsion_basis`.  The construction is right on every curve except when the
right-hand side met by the search is a non-residue of the base field; there the hand-written square
root returns zero and the "points" are not on the curve.  Otherwise the two points are on the curve,
entangled, and give a basis of the `2^k`-torsion whenever the curve has one.
-/
namespace Festa
open RootOps CoeffOps

section
variable {F K : Type*} [Field F] [DecidableEq F] [Field K] [DecidableEq K] [RootOps K] [CoeffOps F K]
  {E : Crv K}

/-- The right-hand side is not a non-residue of the base field.  (`F` is the base field.) -/
def NotExceptional (F : Type*) {K : Type*} [Field F] [Field K] [RootOps K] [CoeffOps F K] (A x : K) : Prop :=
  ∀ c : F, x * x * x + A * x * x + x = new c 0 → IsSquare c

/-- Exactly when the first point is on the curve: the square root fails if and only if the right-hand
side is a non-residue of the base field. -/
theorem C42_exceptional {A : K} {S1 S2 : Pt K} (h : entangledPoints (F := F) A = some (S1, S2)) :
    S1.Y * S1.Y = S1.X * S1.X * S1.X + A * S1.X * S1.X + S1.X ↔ NotExceptional F A S1.X := by
  obtain ⟨m, c, d, s, a1, a2, z1, z2, y1, x2, y2, hs, x0, nsq, une, hf, hsd, hss⟩ := entangledPoints_spec h
  have hf' : S1.X * S1.X * S1.X + A * S1.X * S1.X + S1.X = new c d := by rw [← hf]; ring
  unfold NotExceptional
  rw [hf', y1]
  have hexc := root_exceptional (K := K) (c := c) (d := d) (by rw [← hsd]; exact hss)
  rw [← hsd] at hexc
  constructor
  · intro hy c' hc'
    obtain ⟨rfl, rfl⟩ := new_inj hc'
    by_contra hn
    rw [entangledRoot_zero c s (hexc.mpr (Or.inl ⟨rfl, hn⟩)), mul_zero] at hy
    have := (new_inj (hy.symm.trans (new_zero (F := F)).symm)).1
    exact hn (this ▸ ⟨0, by simp⟩)
  · intro hne
    by_cases h0 : c + s = 0
    · rcases hexc.mp h0 with ⟨rfl, hn⟩ | ⟨rfl, rfl⟩
      · exact absurd (hne c rfl) hn
      · rw [entangledRoot_zero 0 s h0, mul_zero, new_zero]
    · exact entangledRoot_sq c d s hss h0

/-- For every curve and every run that is not exceptional: both points are on the curve, with
`x₂ = 2i r² x₁`, `y₂ = (1 + i) r y₁`, `x₁ + x₂ = -A` for an integer `1 ≤ r ≤ 30`, and the results are
the multiples of these points by the cofactor. -/
theorem C42_points_partial (hE : E.Good) {S1 S2 : Pt K}
    (h : entangledPoints (F := F) E.A = some (S1, S2)) (hne : NotExceptional F E.A S1.X) :
    ∃ (r : Nat) (Q1 Q2 : MPoint E.A), 1 ≤ r ∧ r ≤ 30 ∧ PRep S1 Q1 ∧ PRep S2 Q2 ∧
      S2.X = 2 * zeta * r ^ 2 * S1.X ∧ S2.Y = (1 + zeta) * r * S1.Y ∧ S1.X + S2.X = -E.A ∧
      (∀ cofactor : Nat, ∃ P Q, entangledBasis (F := F) E cofactor = some (P, Q) ∧
        PRep P (cofactor • Q1) ∧ PRep Q (cofactor • Q2)) := by
  have hy := (C42_exceptional h).mpr hne
  obtain ⟨m, c, d, s, a1, a2, z1, z2, y1, x2, y2, hs, x0, nsq, une, hf, hsd, hss⟩ := entangledPoints_spec h
  have hy2 : S2.Y * S2.Y = S2.X * S2.X * S2.X + E.A * S2.X * S2.X + S2.X := by
    have e1 : S2.Y * S2.Y = zeta * 2 * ((m : K) * m) * (S1.Y * S1.Y) := by
      rw [y2]
      linear_combination (m * S1.Y * (m * S1.Y)) * zeta_sq (K := K)
    have hA : E.A = -S1.X - S2.X := by linear_combination hs
    rw [e1, hy, hA]
    linear_combination (1 - S1.X * S2.X) * (-x2)
  have hq1 := nonsing_of hE.two hE.disc hy
  have hq2 := nonsing_of hE.two hE.disc hy2
  have p1 : PRep S1 (.some S1.X S1.Y hq1 : MPoint E.A) :=
    ⟨by rw [z1]; exact one_ne_zero, by rw [z1, mul_one], by rw [z1, mul_one]⟩
  have p2 : PRep S2 (.some S2.X S2.Y hq2 : MPoint E.A) :=
    ⟨by rw [z2]; exact one_ne_zero, by rw [z2, mul_one], by rw [z2, mul_one]⟩
  refine ⟨m, _, _, a1, a2, p1, p2, ?_, y2, hs, fun k => ?_⟩
  · rw [x2]; ring
  · obtain ⟨P, e1, r1⟩ := C27_mul_big hE p1 k
    obtain ⟨Q, e2, r2⟩ := C27_mul_big hE p2 k
    refine ⟨P, Q, ?_, r1, r2⟩
    unfold entangledBasis
    rw [h]
    dsimp only
    rw [e1, e2]

/-- The basis theorem.  On a curve whose points are killed by `2^k · cofactor` with odd cofactor and
which has a basis of order `2^k`, the result is a basis of order `2^k` (when the run is not
exceptional; `S2.X ≠ 0` excludes `r = 0` in characteristic below 30, see `C42_basis_code`). -/
theorem C42_basis_partial (hE : E.Good) {S1 S2 : Pt K}
    (h : entangledPoints (F := F) E.A = some (S1, S2)) (hne : NotExceptional F E.A S1.X) (h0 : S2.X ≠ 0)
    {k cofactor : Nat} (hk : 2 ≤ k) (hodd : cofactor % 2 = 1)
    (hkill : ∀ R : MPoint E.A, (2 ^ k * cofactor) • R = 0)
    (hfull : ∃ P0 Q0 : MPoint E.A, IsBasis (2 ^ k) P0 Q0) :
    ∃ P Q, entangledBasis (F := F) E cofactor = some (P, Q) ∧
      ∃ P' Q' : MPoint E.A, PRep P P' ∧ PRep Q Q' ∧ IsBasis (2 ^ k) P' Q' := by
  obtain ⟨P0, Q0, hb⟩ := hfull
  obtain ⟨r, Q1, Q2, a1, a2, p1, p2, e1, e2, e3, hc⟩ := C42_points_partial hE h hne
  obtain ⟨P, Q, hPQ, rP, rQ⟩ := hc cofactor
  refine ⟨P, Q, hPQ, _, _, rP, rQ, ?_⟩
  obtain ⟨m, c, d, s, b1, b2, z1, z2, y1, x2, y2, hs, x0, nsq, une, -⟩ := entangledPoints_spec h
  obtain ⟨k, rfl⟩ : ∃ j, k = j + 1 := ⟨k - 1, by omega⟩
  rcases Q1 with _ | ⟨u1, v1, n1⟩
  · exact absurd (show S1.Z = 0 from p1) (by rw [z1]; exact one_ne_zero)
  rcases Q2 with _ | ⟨u2, v2, n2⟩
  · exact absurd (show S2.Z = 0 from p2) (by rw [z2]; exact one_ne_zero)
  have hu1 : S1.X = u1 := by have := p1.2.1; rwa [z1, mul_one] at this
  have hu2 : S2.X = u2 := by have := p2.2.1; rwa [z2, mul_one] at this
  rw [hu1] at nsq x0 hs x2
  rw [hu2] at hs x2 h0
  have hm0 : (m : K) ≠ 0 := by
    rintro hm; rw [hm, mul_zero, mul_zero, zero_mul] at x2; exact h0 x2
  have hz := zeta_sq (K := K)
  have hone : (1 + zeta : K) ≠ 0 := by
    intro h1
    have : (2 : K) = 0 := by linear_combination (1 - zeta (K := K)) * h1 + hz
    exact two_ne this
  refine entangled_basis hE hz (by omega) hodd hb hs ?_ nsq ?_ (hkill _) (hkill _)
  · intro h12
    rw [← h12] at x2
    exact une (mul_right_cancel₀ x0 (by rw [one_mul, ← x2]))
  · rintro ⟨q, hq⟩
    apply nsq
    refine ⟨q / ((1 + zeta) * m), ?_⟩
    rw [div_mul_div_comm, eq_div_iff (mul_ne_zero (mul_ne_zero hone hm0) (mul_ne_zero hone hm0)), ← hq, x2]
    linear_combination (u1 * m * m) * hz

/-- The curve with `A = 0` is refused. -/
theorem C42_refuses_zero (E : Crv K) (hA : E.A = 0) (cofactor : Nat) :
    entangledBasis (F := F) E cofactor = none := by
  have h0 : legendre E.A = 0 := (legendre_zero _).mpr hA
  unfold entangledBasis entangledPoints
  dsimp only
  rw [h0, if_neg (by decide), if_neg (by decide)]

end

/-! ### The code's field -/

/-- The basis theorem for the code's field, without the condition on `r`. -/
theorem C42_basis_code {E : Crv Fq} (hE : E.Good) {S1 S2 : Pt Fq}
    (h : entangledPoints E.A = some (S1, S2)) (hne : NotExceptional Fr E.A S1.X)
    {k cofactor : Nat} (hk : 2 ≤ k) (hodd : cofactor % 2 = 1)
    (hkill : ∀ R : MPoint E.A, (2 ^ k * cofactor) • R = 0)
    (hfull : ∃ P0 Q0 : MPoint E.A, IsBasis (2 ^ k) P0 Q0) :
    ∃ P Q, entangledBasis E cofactor = some (P, Q) ∧
      ∃ P' Q' : MPoint E.A, PRep P P' ∧ PRep Q Q' ∧ IsBasis (2 ^ k) P' Q' := by
  refine C42_basis_partial hE h hne ?_ hk hodd hkill hfull
  obtain ⟨m, c, d, s, b1, b2, z1, z2, y1, x2, y2, hs, x0, nsq, une, -⟩ := entangledPoints_spec h
  rw [x2]
  have hm : (m : Fq) ≠ 0 := by
    rw [← new_natCast (F := Fr) m]
    intro hh
    refine Fr.natCast_ne m (by omega) ?_ (new_inj (hh.trans (new_zero (F := Fr)).symm)).1
    have : (31 : Nat) < festaFp.p := by decide +kernel
    omega
  have hz : (zeta : Fq) ≠ 0 := by
    intro hz
    have := zeta_sq (K := Fq)
    rw [hz, mul_zero] at this
    exact one_ne_zero (neg_eq_zero.mp this.symm)
  exact mul_ne_zero (mul_ne_zero (mul_ne_zero hz two_ne) (mul_ne_zero hm hm)) x0

/-- On the starting curve of the scheme, `A = 6` (festa.rs:257), no run is exceptional: the search
never meets a right-hand side in the base field. -/
theorem C42_start_curve {S1 S2 : Pt Fq} (h : entangledPoints (6 : Fq) = some (S1, S2)) :
    NotExceptional Fr (6 : Fq) S1.X := by
  obtain ⟨m, c, d, s, b1, b2, z1, z2, y1, x2, y2, hs, x0, nsq, une, -⟩ := entangledPoints_spec h
  intro c' hc'
  exfalso
  have hx : S1.X * (1 + zeta * 2 * ((m : Fq) * m)) = -6 := by rw [← hs, x2]; ring
  have hz := zeta_sq (K := Fq)
  generalize S1.X = x at hx hc'
  -- multiply by the cube of `1 + q²`
  have hq : ∃ q : Fq, q = 2 * (m * m) := ⟨_, rfl⟩
  obtain ⟨q, hq⟩ := hq
  have hxq : x * (1 + q * q) = -6 * (1 - q * zeta) := by
    have : x * (1 + q * zeta) = -6 := by rw [hq, ← hx]; ring
    linear_combination (1 - q * zeta) * this + (x * q * q) * hz
  have e : (new c' 0 : Fq) * (1 + q * q) ^ 3 =
      -6 * (1 - q * zeta) * ((-6 * (1 - q * zeta)) ^ 2 + 6 * (-6 * (1 - q * zeta)) * (1 + q * q) +
        (1 + q * q) ^ 2) := by
    rw [← hc']
    have e2 : x * (1 + q * q) * ((x * (1 + q * q)) ^ 2 + 6 * (x * (1 + q * q)) * (1 + q * q) +
        (1 + q * q) ^ 2) = (x * x * x + 6 * x * x + x) * (1 + q * q) ^ 3 := by ring
    rw [← e2, hxq]
  -- compare the coefficients of `i`
  have cst : ∀ n : Nat, (n : Fq) = new (n : Fr) 0 := fun n => (new_natCast n).symm
  have hqn : q = new ((2 * (m * m) : Nat) : Fr) 0 := by rw [hq, ← cst]; push_cast; ring
  have h6 : (6 : Fq) = new ((6 : Nat) : Fr) 0 := by rw [← cst]; norm_num
  generalize hqf : ((2 * (m * m) : Nat) : Fr) = qf at hqn
  have hone : (1 : Fq) = new (1 : Fr) 0 := (new_one).symm
  have hzeta : (zeta : Fq) = new (0 : Fr) 1 := (new_zeta).symm
  rw [hqn, h6, hone, hzeta] at e
  simp only [pow_succ, pow_zero, one_mul, new_mul, new_add, new_neg, sub_eq_add_neg] at e
  have him := (new_inj e).2
  clear e hqn h6 hone hzeta
  have hfin : (6 : Fr) * qf * (qf ^ 4 - 106 * qf ^ 2 + 37) = 0 := by
    push_cast at him
    linear_combination -him
  have hnat : (6 * (2 * (m * m)) * ((2 * (m * m)) ^ 4 + 37) : Fr) =
      6 * (2 * (m * m)) * (106 * (2 * (m * m)) ^ 2) := by
    have : qf = 2 * (m * m) := by rw [← hqf]; push_cast; ring
    rw [this] at hfin
    linear_combination hfin
  -- and these are different integers below the modulus
  have hint : ∀ a b : Nat, a < b → b < festaFp.p → (a : Fr) = b → False := by
    intro a b hab hb hh
    refine Fr.natCast_ne (b - a) (by omega) (by omega) ?_
    rw [Nat.cast_sub hab.le, hh, sub_self]
  have hbig : (10 ^ 30 : Nat) < festaFp.p := by decide +kernel
  have hcast : ((6 * (2 * (m * m)) * ((2 * (m * m)) ^ 4 + 37) : Nat) : Fr) =
      ((6 * (2 * (m * m)) * (106 * (2 * (m * m)) ^ 2) : Nat) : Fr) := by
    push_cast; exact hnat
  have hfinite : ∀ m : Fin 31, m.val ≠ 0 →
      6 * (2 * (m.val * m.val)) * ((2 * (m.val * m.val)) ^ 4 + 37) ≠
      6 * (2 * (m.val * m.val)) * (106 * (2 * (m.val * m.val)) ^ 2) ∧
      6 * (2 * (m.val * m.val)) * ((2 * (m.val * m.val)) ^ 4 + 37) < 10 ^ 30 ∧
      6 * (2 * (m.val * m.val)) * (106 * (2 * (m.val * m.val)) ^ 2) < 10 ^ 30 := by decide +kernel
  obtain ⟨d1, d2, d3⟩ := hfinite ⟨m, by omega⟩ (by show m ≠ 0; omega)
  dsimp only at d1 d2 d3
  rcases Nat.lt_or_gt_of_ne d1 with hlt | hlt
  · exact hint _ _ hlt (by omega) hcast
  · exact hint _ _ hlt (by omega) hcast.symm

/-- Hence on the starting curve the function never panics and returns multiples of two points of the
curve, for every cofactor. -/
theorem C42_start_points {E : Crv Fq} (hE : E.Good) (hA : E.A = 6) : ∃ Q1 Q2 : MPoint E.A,
    ∀ cofactor : Nat, ∃ P Q, entangledBasis E cofactor = some (P, Q) ∧
      PRep P (cofactor • Q1) ∧ PRep Q (cofactor • Q2) := by
  obtain ⟨⟨S1, S2⟩, h⟩ := start_points
  rw [← hA] at h
  have hne : NotExceptional Fr E.A S1.X := by
    rw [hA] at h ⊢
    exact C42_start_curve h
  obtain ⟨r, Q1, Q2, -, -, -, -, -, -, -, hc⟩ := C42_points_partial hE h hne
  exact ⟨Q1, Q2, hc⟩

/-- Such a curve exists: `Curve::new(6)`. -/
theorem start_curve_exists : ∃ E : Crv Fq, Crv.new (6 : Fq) = some E ∧ E.A = 6 ∧ E.Good := by
  have h4 : (4 : Fq) ≠ 0 := by
    have := mul_ne_zero (two_ne (K := Fq)) (two_ne (K := Fq))
    rwa [show (2 : Fq) * 2 = 4 by norm_num] at this
  have h8 : (6 + 2 : Fq) ≠ 0 := by
    have := mul_ne_zero (two_ne (K := Fq)) h4
    rwa [show (2 : Fq) * 4 = 6 + 2 by norm_num] at this
  have h6 : (6 : Fq) ≠ 2 := fun h => h4 (by linear_combination h)
  refine ⟨⟨6, (6 + 2) / 2 / 2⟩, ?_, rfl, two_ne, ?_, ?_⟩
  · unfold Crv.new
    rw [if_neg h6, if_neg h8]
  · intro h
    have : (4 : Fq) * (6 + 2) = 0 := by linear_combination h
    exact (mul_ne_zero h4 h8) this
  · show 4 * ((6 + 2) / 2 / 2 : Fq) = 6 + 2
    have := two_ne (K := Fq)
    field_simp
    norm_num

/-! ### A curve on which the construction fails -/

/-- `y² = x³ + 6x² + x` over the field with 49 elements, a supersingular curve with 64 points. -/
def e49 : Crv F49 := ⟨6, 2⟩
/-- `y² = x³ + x² + x` over the field with 49 elements, a supersingular curve with 64 points. -/
def f49 : Crv F49 := ⟨1, 6⟩

theorem e49_good : e49.Good := ⟨by decide +kernel, by decide +kernel, by decide +kernel⟩
theorem f49_good : f49.Good := ⟨by decide +kernel, by decide +kernel, by decide +kernel⟩

/-- The exceptional case does occur: on this curve the function returns two pairs of coordinates
that are not on the curve.  So C42 is false as stated. -/
theorem C42_fails : ∃ P Q : Pt F49, entangledBasis e49 1 = some (P, Q) ∧
    (¬ ∃ R : MPoint e49.A, PRep P R) ∧ ¬ ∃ R : MPoint e49.A, PRep Q R := by
  obtain ⟨P, Q, h, h1, h2⟩ : ∃ P Q : Pt F49, entangledBasis e49 1 = some (P, Q) ∧
      e49.onCurve P = false ∧ e49.onCurve Q = false := by
    refine ⟨⟨⟨3, 1⟩, 0, 1⟩, ⟨⟨5, 6⟩, 0, 1⟩, ?_⟩
    decide +kernel
  refine ⟨P, Q, h, ?_, ?_⟩
  · rw [← (C28_on_curve e49_good P).1, h1]; decide
  · rw [← (C28_on_curve e49_good Q).1, h2]; decide

/-- The two points found on the other curve. -/
def s49 : Pt F49 := ⟨⟨4, 6⟩, 1, 1⟩
def t49 : Pt F49 := ⟨⟨2, 1⟩, ⟨1, 1⟩, 1⟩

theorem f49_points : entangledPoints f49.A = some (s49, t49) := by decide +kernel

theorem f49_notExceptional : NotExceptional (ZMod 7) f49.A s49.X := by
  unfold NotExceptional; decide +kernel

theorem f49_killed (X : MPoint f49.A) : 8 • X = 0 := by
  have hall : ∀ a b c d : ZMod 7, (⟨c, d⟩ * ⟨c, d⟩ : F49) =
      ⟨a, b⟩ * ⟨a, b⟩ * ⟨a, b⟩ + f49.A * ⟨a, b⟩ * ⟨a, b⟩ + ⟨a, b⟩ →
      (f49.mulBig ⟨⟨a, b⟩, ⟨c, d⟩, 1⟩ 8).map Pt.isInf = some true := by
    decide +kernel
  rcases X with _ | ⟨⟨a, b⟩, ⟨c, d⟩, h⟩
  · exact nsmul_zero _
  · have hr : PRep (⟨⟨a, b⟩, ⟨c, d⟩, 1⟩ : Pt F49) (.some ⟨a, b⟩ ⟨c, d⟩ h : MPoint f49.A) :=
      ⟨one_ne_zero, (mul_one _).symm, (mul_one _).symm⟩
    exact nsmul_eq_zero_of f49_good hr (hall a b c d (curve_eq h))

theorem isBasis_of_check {H : Type*} [AddCommGroup H] {n : Nat} (hn : 1 ≤ n) {P Q : H} (hP : n • P = 0)
    (hQ : n • Q = 0) (h : ∀ a b : Fin n, a.val • P + b.val • Q = 0 → a.val = 0 ∧ b.val = 0) :
    IsBasis n P Q := by
  have hn' : (0 : Int) < n := by exact_mod_cast hn
  have red : ∀ (X : H), n • X = 0 → ∀ a : Int, a • X = (a % n).toNat • X := by
    intro X hX a
    conv_lhs => rw [← Int.emod_add_mul_ediv a n]
    rw [add_zsmul, mul_comm, mul_zsmul, natCast_zsmul, hX, zsmul_zero, add_zero, ← natCast_zsmul,
      Int.toNat_of_nonneg (Int.emod_nonneg _ hn'.ne')]
  have lt : ∀ a : Int, (a % n).toNat < n := fun a => by
    have := Int.emod_lt_of_pos a hn'
    have := Int.emod_nonneg a hn'.ne'
    omega
  intro a b
  rw [red P hP a, red Q hQ b]
  constructor
  · intro h0
    obtain ⟨h1, h2⟩ := h ⟨_, lt a⟩ ⟨_, lt b⟩ h0
    dsimp only at h1 h2
    have := Int.emod_nonneg a hn'.ne'
    have := Int.emod_nonneg b hn'.ne'
    exact ⟨Int.dvd_of_emod_eq_zero (by omega), Int.dvd_of_emod_eq_zero (by omega)⟩
  · rintro ⟨h1, h2⟩
    rw [Int.emod_eq_zero_of_dvd h1, Int.emod_eq_zero_of_dvd h2]
    simp

theorem f49_full : ∃ P Q : MPoint f49.A, IsBasis (2 ^ 3) P Q := by
  obtain ⟨P, hP⟩ := ((C28_on_curve f49_good s49).1).mp (by decide +kernel)
  obtain ⟨Q, hQ⟩ := ((C28_on_curve f49_good t49).1).mp (by decide +kernel)
  refine ⟨P, Q, isBasis_of_check (by decide) (f49_killed P) (f49_killed Q) ?_⟩
  have hall : ∀ a b : Fin 8, (match f49.mulBig s49 a.val, f49.mulBig t49 b.val with
      | some X, some Y => (f49.add X Y).isInf
      | _, _ => false) = true → a.val = 0 ∧ b.val = 0 := by decide +kernel
  intro a b hab
  apply hall a b
  obtain ⟨X, x1, x2⟩ := C27_mul_big f49_good hP a.val
  obtain ⟨Y, y1, y2⟩ := C27_mul_big f49_good hQ b.val
  rw [x1, y1]
  exact (isInf_false (prep_add f49_good x2 y2)).mpr hab

example : ∃ P Q, entangledBasis f49 3 = some (P, Q) ∧
    ∃ P' Q' : MPoint f49.A, PRep P P' ∧ PRep Q Q' ∧ IsBasis (2 ^ 3) P' Q' :=
  C42_basis_partial f49_good f49_points f49_notExceptional (by decide +kernel) (by decide) (by decide)
    (fun R => by rw [mul_comm, mul_nsmul', show 2 ^ 3 = 8 by norm_num, f49_killed, nsmul_zero]) f49_full

example : ∃ (r : Nat) (Q1 Q2 : MPoint f49.A), 1 ≤ r ∧ r ≤ 30 ∧ PRep s49 Q1 ∧ PRep t49 Q2 := by
  obtain ⟨r, Q1, Q2, h1, h2, h3, h4, -⟩ := C42_points_partial f49_good f49_points f49_notExceptional
  exact ⟨r, Q1, Q2, h1, h2, h3, h4⟩

end Festa
