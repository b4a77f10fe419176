import Verif.Lemmas.ECLadder
import Verif.Lemmas.ECIso
import Verif.Lemmas.FqRoot
import Verif.Spec.TestField
/-!
C24-C33, C58-C60: the curve code against Mathlib's group of points of `y^2 = x^3 + A x^2 + x`.

All statements hold over every field `K` of characteristic not 2; the code's field is `K = Fq`
(`Verif/Lemmas/Fq.lean`, `Verif/Lemmas/FqRoot.lean`), where the field operations are the limb
routines of the code.  `PRep P Q` reads "the triple `P` is a projective representation of the point
`Q`", `KRep X Z Q` reads "`(X : Z)` is the x-coordinate of `Q`".
-/
namespace Festa
open WeierstrassCurve.Affine RootOps
variable {K : Type*} [Field K] [DecidableEq K]

/-! ### Concrete curves and points used below -/

/-- `y^2 = x^3 + 7 x^2 + x` over the field with 29 elements. -/
def tE : Crv F29 := ⟨7, 9 / 4⟩
theorem tE_good : tE.Good := ⟨by decide, by decide, by decide +kernel⟩
/-- The point `(1, 3)`, which is neither infinity nor of order 2. -/
def tQ : MPoint tE.A := .some 1 3 (nonsing_of (by decide) (by decide) (by decide))
/-- The point `(0, 0)` of order 2. -/
def tT : MPoint tE.A := .some 0 0 (nonsing_of (by decide) (by decide) (by decide))
theorem tQ_rep : PRep (⟨2, 6, 2⟩ : Pt F29) tQ := ⟨by decide, by decide, by decide⟩
theorem tT_rep : PRep (⟨0, 0, 7⟩ : Pt F29) tT := ⟨by decide, by decide, by decide⟩

/-- The starting curve `y^2 = x^3 + x` over the code's field and its point `(i, 0)`. -/
def qE : Crv Fq := ⟨0, 2 / 4⟩
theorem qE_good : qE.Good := by
  have h2 : (2 : Fq) ≠ 0 := two_ne
  have h4 : (4 : Fq) ≠ 0 := by
    rw [show (4 : Fq) = 2 * 2 by norm_num]; exact mul_ne_zero h2 h2
  refine ⟨h2, ?_, ?_⟩
  · change (0 : Fq) * 0 ≠ 4
    rw [mul_zero]; exact h4.symm
  · change 4 * (2 / 4 : Fq) = 0 + 2
    rw [mul_div_cancel₀ _ h4, zero_add]
theorem qE_point : ∃ Q : MPoint qE.A, Q ≠ 0 ∧ PRep (⟨zeta, 0, 1⟩ : Pt Fq) Q := by
  have hz := zeta_sq (K := Fq)
  refine ⟨.some zeta 0 (nonsing_of qE_good.two qE_good.disc ?_), Point.some_ne_zero _,
    one_ne_zero, (mul_one _).symm, (mul_one _).symm⟩
  change (0 : Fq) * 0 = zeta * zeta * zeta + 0 * zeta * zeta + zeta
  linear_combination -(zeta : Fq) * hz

/-! ### C24 -/

/-- Two projective triples compare equal exactly when they represent the same point. -/
theorem C24_equals {A : K} {P P' : Pt K} {Q Q' : MPoint A} (h : PRep P Q) (h' : PRep P' Q') :
    P.equals P' = true ↔ Q = Q' := prep_equals h h'

/-- Rescaling does not change the point, and every point has a representation. -/
theorem C24_scaling {A : K} {P : Pt K} {Q : MPoint A} (h : PRep P Q) {c : K} (hc : c ≠ 0) :
    PRep ⟨c * P.X, c * P.Y, c * P.Z⟩ Q ∧ P.equals ⟨c * P.X, c * P.Y, c * P.Z⟩ = true := by
  have h' : PRep ⟨c * P.X, c * P.Y, c * P.Z⟩ Q := by
    rcases Q with _ | ⟨x, y, k⟩
    · have hz : P.Z = 0 := h
      change c * P.Z = 0
      rw [hz, mul_zero]
    · obtain ⟨hz, hx, hy⟩ := h
      refine ⟨mul_ne_zero hc hz, ?_, ?_⟩
      · simp only; rw [hx]; ring
      · simp only; rw [hy]; ring
  exact ⟨h', (prep_equals h h').mpr rfl⟩

/-- Infinity test. -/
theorem C24_isinfinity {A : K} {P : Pt K} {Q : MPoint A} (h : PRep P Q) :
    P.isInf = true ↔ Q = 0 := by
  unfold Pt.isInf
  rw [decide_eq_true_iff]
  rcases Q with _ | ⟨x, y, k⟩
  · exact ⟨fun _ => rfl, fun _ => h⟩
  · exact ⟨fun hz => absurd hz h.1, fun hz => absurd hz (Point.some_ne_zero _)⟩

/-- The affine coordinates returned are those of the point; `to_xy` gives (0, 0) for infinity. -/
theorem C24_to_xy {A : K} {P : Pt K} {Q : MPoint A} (h : PRep P Q) :
    (Q = 0 → P.toXYVartime = none ∧ P.toXY = (0, 0)) ∧
    (∀ x y k, Q = .some x y k → P.toXYVartime = some (x, y) ∧ P.toXY = (x, y)) := by
  constructor
  · rintro rfl
    have hz : P.Z = 0 := h
    simp [Pt.toXYVartime, Pt.toXY, hz]
  · rintro x y k rfl
    obtain ⟨hz, hx, hy⟩ := h
    simp [Pt.toXYVartime, Pt.toXY, hz, hx, hy]

/-- Equality of x-only points: equal exactly when the points agree up to sign. -/
theorem C24_pointX_equals {A : K} {P P' : PtX K} {Q Q' : MPoint A} (h : KRep P.X P.Z Q)
    (h' : KRep P'.X P'.Z Q') : P.equals P' = true ↔ Q = Q' ∨ Q = -Q' := by
  unfold PtX.equals
  rcases Q with _ | ⟨x, y, k⟩ <;> rcases Q' with _ | ⟨x', y', k'⟩
  · simp [h.2, h'.2]
  · have e : (Point.zero : MPoint A) = 0 := rfl
    simp [h.2, h'.1, e, eq_comm (a := (0 : MPoint A))]
  · have e : (Point.zero : MPoint A) = 0 := rfl
    simp [h.1, h'.2, e]
  · obtain ⟨z, rx⟩ := h
    obtain ⟨z', rx'⟩ := h'
    obtain ⟨hn, en⟩ := neg_pt k'
    rw [en]
    simp only [z, z', decide_false, Bool.false_and, Bool.not_false, Bool.true_and, Bool.false_or,
      decide_eq_true_eq, Point.some.injEq]
    rw [rx, rx']
    have e : x * P.Z * P'.Z = x' * P'.Z * P.Z ↔ x = x' := by
      rw [show x * P.Z * P'.Z = x * (P.Z * P'.Z) by ring,
        show x' * P'.Z * P.Z = x' * (P.Z * P'.Z) by ring]
      exact mul_left_inj' (mul_ne_zero z z')
    rw [e]
    constructor
    · rintro rfl
      rcases y_of_x_eq k k' with hy | hy
      · exact Or.inl ⟨rfl, hy⟩
      · exact Or.inr ⟨rfl, hy⟩
    · rintro (⟨h, -⟩ | ⟨h, -⟩) <;> exact h

example : (⟨2, 6, 2⟩ : Pt F29).equals ⟨3, 9, 3⟩ = true ∧
    (⟨2, 6, 2⟩ : Pt F29).equals ⟨0, 1, 0⟩ = false ∧
    (⟨5, 6, 0⟩ : Pt F29).equals ⟨0, 1, 0⟩ = true := by decide
example : PRep (⟨2, 6, 2⟩ : Pt F29) tQ ∧ PRep (⟨5, 6, 0⟩ : Pt F29) (0 : MPoint tE.A) ∧
    (3 : F29) ≠ 0 ∧ KRep (2 : F29) 2 tQ := ⟨tQ_rep, rfl, by decide, by decide, by decide⟩

/-! ### C25 -/

/-- Addition is the group law for every pair of points in every representation. -/
theorem C25_add {E : Crv K} (hE : E.Good) {P1 P2 : Pt K} {Q1 Q2 : MPoint E.A} (h1 : PRep P1 Q1)
    (h2 : PRep P2 Q2) : PRep (E.add P1 P2) (Q1 + Q2) := prep_add hE h1 h2

/-- Negation and subtraction. -/
theorem C25_neg_sub {E : Crv K} (hE : E.Good) {P1 P2 : Pt K} {Q1 Q2 : MPoint E.A}
    (h1 : PRep P1 Q1) (h2 : PRep P2 Q2) :
    PRep P2.neg (-Q2) ∧ PRep (E.sub P1 P2) (Q1 - Q2) := ⟨prep_neg h2, prep_sub hE h1 h2⟩

/-- Conditional negation. -/
theorem C25_condneg {A : K} {P : Pt K} {Q : MPoint A} (h : PRep P Q) (c : Bool) :
    PRep (P.condNeg c) (if c then -Q else Q) := by
  cases c
  · exact h
  · exact prep_neg h

/-- On triples: the sum of points of the curve is on the curve, and addition is associative and
commutative up to scaling. -/
theorem C25_laws {E : Crv K} (hE : E.Good) {P1 P2 P3 : Pt K} (h1 : E.onCurve P1 = true)
    (h2 : E.onCurve P2 = true) (h3 : E.onCurve P3 = true) :
    E.onCurve (E.add P1 P2) = true ∧ (E.add P1 P2).equals (E.add P2 P1) = true ∧
    (E.add (E.add P1 P2) P3).equals (E.add P1 (E.add P2 P3)) = true ∧
    (E.sub (E.add P1 P2) P2).equals P1 = true ∧ (E.sub P1 P1).isInf = true := by
  have on : ∀ P : Pt K, E.onCurve P = true ↔ ∃ Q : MPoint E.A, PRep P Q := by
    intro P
    rw [exists_prep_iff hE.two hE.disc]
    unfold Crv.onCurve
    by_cases hz : P.Z = 0
    · simp [hz]
    · rw [if_neg hz]
      dsimp only [Pt.toXY]
      rw [decide_eq_true_iff, or_iff_right hz]
      constructor
      · intro h
        field_simp at h
        linear_combination h
      · intro h
        field_simp
        linear_combination h
  obtain ⟨Q1, k1⟩ := (on _).mp h1
  obtain ⟨Q2, k2⟩ := (on _).mp h2
  obtain ⟨Q3, k3⟩ := (on _).mp h3
  have a12 := prep_add hE k1 k2
  refine ⟨(on _).mpr ⟨_, a12⟩, (prep_equals a12 (prep_add hE k2 k1)).mpr (add_comm _ _),
    (prep_equals (prep_add hE a12 k3) (prep_add hE k1 (prep_add hE k2 k3))).mpr (add_assoc _ _ _),
    (prep_equals (prep_sub hE a12 k2) k1).mpr (add_sub_cancel_right _ _),
    (C24_isinfinity (prep_sub hE k1 k1)).mpr (sub_self _)⟩

example : PRep (tE.add ⟨2, 6, 2⟩ ⟨2, 6, 2⟩) (tQ + tQ) := C25_add tE_good tQ_rep tQ_rep
example : PRep (tE.add ⟨2, 6, 2⟩ ⟨0, 0, 7⟩) (tQ + tT) := C25_add tE_good tQ_rep tT_rep
example : tE.onCurve ⟨2, 6, 2⟩ = true ∧ tE.onCurve ⟨0, 0, 7⟩ = true ∧ tE.onCurve ⟨2, 9, 2⟩ = false := by
  decide +kernel
/-- The code's own field: `(i, 0)` has order 2. -/
example : ∃ Q : MPoint qE.A, Q ≠ 0 ∧ PRep (qE.add ⟨zeta, 0, 1⟩ ⟨zeta, 0, 1⟩) (Q + Q) :=
  let ⟨Q, h0, h⟩ := qE_point
  ⟨Q, h0, C25_add qE_good h h⟩

/-! ### C26 -/

/-- Doubling and repeated doubling. -/
theorem C26_double {E : Crv K} (hE : E.Good) {P : Pt K} {Q : MPoint E.A} (h : PRep P Q) (n : Nat) :
    PRep (E.double P) (2 • Q) ∧ PRep (E.doubleIter P n) ((2 ^ n) • Q) :=
  ⟨prep_double hE h, prep_doubleIter hE h n⟩

example : PRep (tE.doubleIter ⟨2, 6, 2⟩ 5) ((2 ^ 5) • tQ) := (C26_double tE_good tQ_rep 5).2
example : (tE.double ⟨2, 6, 2⟩).isInf = false ∧ (tE.double ⟨0, 0, 7⟩).isInf = true := by decide +kernel

/-! ### C27 -/

/-- Full statement of the claim for `mul`: for every slice that covers the requested bits the result
is the multiple by the number made of the low `nbitlen` bits.  It fails, see
`C27_mul_zero_bits_fails`: with `nbitlen = 0` and a point of order 2 the code still reads the lowest
bit of the slice.  Proved here: all other cases. -/
theorem C27_mul_partial {E : Crv K} (hE : E.Good) {P : Pt K} {Q : MPoint E.A} (hP : PRep P Q)
    (n : List UInt8) (nbitlen : Nat) (hn : n ≠ []) (hl : nbitlen ≤ 8 * n.length)
    (h0 : nbitlen ≠ 0 ∨ bval n % 2 = 0 ∨ ∀ xp h, Q ≠ .some xp 0 h) :
    ∃ R, E.mul P n nbitlen = some R ∧ PRep R ((bval n % 2 ^ nbitlen) • Q) :=
  mul_spec hE hP n nbitlen hn hl h0

/-- With `nbitlen = 0` the scalar is 0, but a point of order 2 is returned unchanged when the first
byte of the slice is odd. -/
theorem C27_mul_zero_bits_fails {E : Crv K} (hE : E.Good) {P : Pt K} {x : K}
    {h : (mont E.A).Nonsingular x 0} (hP : PRep P (.some x 0 h : MPoint E.A)) (n0 : UInt8)
    (ns : List UInt8) (hodd : n0.toNat % 2 = 1) :
    ∃ R, E.mul P (n0 :: ns) 0 = some R ∧ PRep R (.some x 0 h : MPoint E.A) ∧
      ¬ PRep R ((bval (n0 :: ns) % 2 ^ 0) • (.some x 0 h : MPoint E.A)) := by
  refine ⟨E.mulFinish P ⟨1, 0, P.X, P.Z, false⟩ n0, rfl, ?_⟩
  have h1 := mulFinish_spec hE hP (k := 1) (s := ⟨1, 0, P.X, P.Z, false⟩) n0
    (fun xp yp k e hy => by
      rw [Point.some.injEq] at e
      exact absurd e.2.symm hy) (Or.inl hodd)
  rw [one_nsmul] at h1
  refine ⟨h1, fun h2 => ?_⟩
  rw [pow_zero, Nat.mod_one, zero_nsmul] at h2
  exact Point.some_ne_zero _ (prep_unique h1 h2)

/-- The call fails (index out of range) exactly for an empty slice or one shorter than the
requested number of bits. -/
theorem C27_mul_panics (E : Crv K) (P : Pt K) (n : List UInt8) (nbitlen : Nat) :
    E.mul P n nbitlen = none ↔ (n = [] ∨ 8 * n.length < nbitlen) := mul_none E P n nbitlen

/-- Multiplication by a big integer: every scalar, every point. -/
theorem C27_mul_big {E : Crv K} (hE : E.Good) {P : Pt K} {Q : MPoint E.A} (hP : PRep P Q)
    (n : Nat) : ∃ R, E.mulBig P n = some R ∧ PRep R (n • Q) := by
  obtain ⟨h1, h2⟩ := toBytesLe_spec n
  by_cases h0 : n = 0
  · subst h0
    obtain ⟨R, e, r⟩ := mul_spec hE hP (toBytesLe 0) 0 (by unfold toBytesLe; simp) (by omega)
      (Or.inr (Or.inl (by rw [h1])))
    rw [h1, Nat.zero_mod] at r
    exact ⟨R, e, r⟩
  · have hl := h2 h0
    obtain ⟨R, e, r⟩ := mul_spec hE hP (toBytesLe n) (Nat.log2 n + 1)
      (by rintro h; rw [h, List.length_nil] at hl; omega) hl (Or.inl (by omega))
    rw [h1, Nat.mod_eq_of_lt Nat.lt_log2_self] at r
    unfold Crv.mulBig
    rw [if_neg h0]
    exact ⟨R, e, r⟩

set_option linter.constructorNameAsVariable false in
/-- Multiplication by a 64-bit integer. -/
theorem C27_mul_small {E : Crv K} (hE : E.Good) {P : Pt K} {Q : MPoint E.A} (hP : PRep P Q)
    (n : UInt64) : ∃ R, E.mulSmall P n = some R ∧ PRep R (n.toNat • Q) := by
  unfold Crv.mulSmall
  have key : ∀ m : UInt64, m.toNat = n.toNat → n = m := fun m h => UInt64.toNat_inj.mp h.symm
  by_cases h0 : n = 0
  · subst h0
    refine ⟨Pt.inf, rfl, ?_⟩
    rw [UInt64.toNat_zero, zero_nsmul]; rfl
  by_cases h1 : n = 1
  · subst h1
    refine ⟨P, rfl, ?_⟩
    rw [UInt64.toNat_one, one_nsmul]; exact hP
  rw [if_neg h0, if_neg h1]
  by_cases h2 : n = 2
  · rw [if_pos h2, h2]
    exact ⟨_, rfl, prep_double hE hP⟩
  rw [if_neg h2]
  by_cases h3 : n = 3
  · rw [if_pos h3, h3, show (3 : UInt64).toNat = 2 + 1 from rfl, succ_nsmul]
    exact ⟨_, rfl, prep_add hE (prep_double hE hP) hP⟩
  rw [if_neg h3]
  obtain ⟨l, -⟩ := leBytes_spec 8 n
  have hn : n.toNat ≠ 0 := fun h => h0 (key 0 (by rw [h]; rfl))
  obtain ⟨R, e, r⟩ := mul_spec hE hP (leBytes 8 n) (Nat.log2 n.toNat + 1)
    (by rintro h; rw [h, List.length_nil] at l; omega)
    (by rw [l]; exact (Nat.log2_lt hn).mpr n.toNat_lt) (Or.inl (by omega))
  rw [leBytes8, Nat.mod_eq_of_lt Nat.lt_log2_self] at r
  exact ⟨R, e, r⟩

example : ∃ R, tE.mulBig ⟨2, 6, 2⟩ (2 ^ 70 + 11) = some R ∧ PRep R ((2 ^ 70 + 11) • tQ) :=
  C27_mul_big tE_good tQ_rep _
example : ∃ R, tE.mulSmall ⟨0, 0, 7⟩ 12345 = some R ∧ PRep R (12345 • tT) :=
  C27_mul_small tE_good tT_rep 12345
example : ∃ R, tE.mul ⟨2, 6, 2⟩ [0xAB, 0xCD] 13 = some R ∧ PRep R ((bval [0xAB, 0xCD] % 2 ^ 13) • tQ) :=
  C27_mul_partial tE_good tQ_rep _ _ (by decide) (by decide) (Or.inl (by decide))
example : tE.mul ⟨0, 0, 7⟩ [1] 0 = some ⟨0, 0, 7⟩ := by decide +kernel
example : ∃ Q : MPoint qE.A, Q ≠ 0 ∧ ∃ R, qE.mulBig ⟨zeta, 0, 1⟩ (2 ^ 100 + 1) = some R ∧
    PRep R ((2 ^ 100 + 1) • Q) :=
  let ⟨Q, h0, h⟩ := qE_point
  ⟨Q, h0, C27_mul_big qE_good h _⟩

/-! ### C28 -/

/-- `on_curve` accepts exactly the triples that represent a point of the curve. -/
theorem C28_on_curve {E : Crv K} (hE : E.Good) (P : Pt K) :
    (E.onCurve P = true ↔ ∃ Q : MPoint E.A, PRep P Q) ∧
    (E.onCurve P = true ↔ P.Z = 0 ∨
      P.Y * P.Y * P.Z = P.X * P.X * P.X + E.A * P.X * P.X * P.Z + P.X * P.Z * P.Z) := by
  rw [exists_prep_iff hE.two hE.disc, and_self]
  unfold Crv.onCurve
  by_cases hz : P.Z = 0
  · simp [hz]
  · rw [if_neg hz]
    dsimp only [Pt.toXY]
    rw [decide_eq_true_iff, or_iff_right hz]
    constructor
    · intro h
      field_simp at h
      linear_combination h
    · intro h
      field_simp
      linear_combination h

/-- Affine construction: success exactly on the curve; the failed call leaves infinity. -/
theorem C28_set_xy {E : Crv K} (hE : E.Good) (x y : K) :
    ((E.setXY x y).2 = true ↔ y * y = x * x * x + E.A * x * x + x) ∧
    ((E.setXY x y).2 = true → ∃ h, PRep (E.setXY x y).1 (.some x y h : MPoint E.A)) ∧
    ((E.setXY x y).2 = false → (E.setXY x y).1.isInf = true) ∧
    (E.pointXY x y = if (E.setXY x y).2 then some (E.setXY x y).1 else none) := by
  have h1 : (E.setXY x y).2 = true ↔ y * y = x * x * x + E.A * x * x + x := by
    simp only [Crv.setXY, decide_eq_true_eq]
    constructor <;> intro h <;> linear_combination h
  refine ⟨h1, fun h => ?_, fun h => ?_, rfl⟩
  · refine ⟨nonsing_of hE.two hE.disc (h1.mp h), ?_⟩
    have e : (E.setXY x y).1 = ⟨x, y, 1⟩ := by
      change (⟨x, y, cond' 1 0 (!(E.setXY x y).2)⟩ : Pt K) = _
      rw [h]; rfl
    rw [e]
    exact ⟨one_ne_zero, (mul_one _).symm, (mul_one _).symm⟩
  · have e : (E.setXY x y).1 = ⟨x, y, cond' 1 0 (!(E.setXY x y).2)⟩ := rfl
    rw [e, h]
    simp [Pt.isInf, cond']

/-- Projective construction. -/
theorem C28_set_xyz {E : Crv K} (hE : E.Good) (x y z : K) :
    ((E.setXYZ x y z).2 = true ↔ ∃ Q : MPoint E.A, PRep ⟨x, y, z⟩ Q) ∧
    ((E.setXYZ x y z).2 = true → (E.setXYZ x y z).1 = ⟨x, y, z⟩) ∧
    ((E.setXYZ x y z).2 = false → (E.setXYZ x y z).1.isInf = true) ∧
    (E.pointXYZ x y z = if (E.setXYZ x y z).2 then some (E.setXYZ x y z).1 else none) := by
  have e : (E.setXYZ x y z).1 = ⟨x, y, cond' z 0 (!(E.setXYZ x y z).2)⟩ := rfl
  refine ⟨?_, fun h => ?_, fun h => ?_, rfl⟩
  · rw [exists_prep_iff hE.two hE.disc]
    simp only [Crv.setXYZ, Bool.or_eq_true, decide_eq_true_eq]
    rw [or_comm]
    refine or_congr Iff.rfl ?_
    constructor <;> intro h <;> linear_combination -h
  · rw [e, h]; rfl
  · rw [e, h]; simp [Pt.isInf, cond']

example : (tE.setXY 1 3).2 = true ∧ (tE.setXY 1 5).2 = false ∧ (tE.setXYZ 2 6 2).2 = true ∧
    (tE.setXYZ 2 9 2).2 = false ∧ tE.pointXYZ 2 6 2 = some ⟨2, 6, 2⟩ ∧ tE.pointXY 1 5 = none := by
  decide +kernel

/-! ### C30 -/

/-- x-only doubling. -/
theorem C30_x_dbl {E : Crv K} (hE : E.Good) {X Z : K} {Q : MPoint E.A} (h : KRep X Z Q) :
    KRep (E.xDbl X Z).1 (E.xDbl X Z).2 (2 • Q) := krep_dbl hE h

/-- Every represented point gives an x-only representation, up to `(0 : 0)` for infinity. -/
theorem C30_from_point {A : K} {P : Pt K} {Q : MPoint A} (h : PRep P Q) (h0 : P.X ≠ 0 ∨ P.Z ≠ 0) :
    KRep (PtX.ofPt P).X (PtX.ofPt P).Z Q := by
  rcases Q with _ | ⟨x, y, k⟩
  · exact ⟨h0.resolve_right (not_not.mpr h), h⟩
  · exact ⟨h.1, h.2.1⟩

example : KRep (tE.xDbl 2 2).1 (tE.xDbl 2 2).2 (2 • tQ) := C30_x_dbl tE_good ⟨by decide, by decide⟩

/-! ### C31 -/

/-- Full statement of the claim: for all isomorphic `E1`, `E2` the constructed map is a group
isomorphism on all points.  It fails for infinity (`C31_infinity_fails`) and when the curves have
the same coefficient (`C31_same_curve_fails`).  Proved here: curves isomorphic over the field with
`A1^2 != A2^2`, both coefficients non-zero and `A1^2 != 3`, every point except infinity. -/
theorem C31_isomorphism_partial [RootOps K] {E1 E2 : Crv K} (h1 : E1.Good) (h2 : E2.Good)
    (hiso : IsoOver E1.A E2.A) (hne : E1.A * E1.A ≠ E2.A * E2.A) (ha1 : E1.A ≠ 0) (ha2 : E2.A ≠ 0)
    (h3 : E1.A * E1.A ≠ 3) :
    ∃ φ : MPoint E1.A ≃+ MPoint E2.A, ∀ (P : Pt K) (Q : MPoint E1.A), PRep P Q → Q ≠ 0 →
      PRep ((CrvIso.new E1 E2).eval P) (φ Q) := by
  obtain ⟨u, v, w0, hw0, hu, e1, e2, e3⟩ := isoOver_elim h1.two hiso
  have hu0 : u ≠ 0 := by rw [hu]; exact mul_ne_zero hw0 hw0
  have hv : v ≠ 0 := by
    rintro rfl
    apply hne
    have huu : u * u = 1 := by linear_combination -e2
    linear_combination (-(E1.A * E1.A)) * huu - (u * E1.A + E2.A) * e1
  have e3' : v * v + E2.A * v + 1 = 0 := (mul_eq_zero.mp e3).resolve_left hv
  have h3' : 3 - E1.A * E1.A ≠ 0 := sub_ne_zero.mpr h3.symm
  have cv : (CrvIso.new E1 E2).v = v := by
    simp only [CrvIso.new]
    rw [div_eq_iff (mul_ne_zero ha2 h3')]
    linear_combination (3 * v + E2.A + u * E1.A) * e1 - E1.A ^ 2 * e2 - (9 - 3 * E1.A ^ 2) * e3'
  have cu : (CrvIso.new E1 E2).u = u := by
    have : (CrvIso.new E1 E2).u = (3 * (CrvIso.new E1 E2).v + E2.A) / E1.A := rfl
    rw [this, cv, e1, mul_div_cancel_right₀ _ ha1]
  have cw : (CrvIso.new E1 E2).w = (sqrt (u * (u * u))).1 := by
    have : (CrvIso.new E1 E2).w = (sqrt ((CrvIso.new E1 E2).u *
      ((CrvIso.new E1 E2).u * (CrvIso.new E1 E2).u))).1 := rfl
    rw [this, cu]
  have hsq : IsSquare (u * (u * u)) := ⟨w0 * w0 * w0, by rw [hu]; ring⟩
  have hw : (CrvIso.new E1 E2).w * (CrvIso.new E1 E2).w = u * u * u := by
    rw [cw, (sqrt_sq _ hsq).2]; ring
  have hw1 : (CrvIso.new E1 E2).w ≠ 0 := by
    intro h
    rw [h, mul_zero] at hw
    exact mul_ne_zero (mul_ne_zero hu0 hu0) hu0 hw.symm
  have hp := fun x y h => iso_point (x := x) (y := y) h1.two h2.disc hw e1 e2 e3 h
  obtain ⟨φ, hφ⟩ := exists_iso hp (isoMap_bij hu0 hw1 hp h1.two h1.disc hw e1 e2 e3)
    (isoMap_add h1.two hu0 hw1 hw e1 e2 hp)
  refine ⟨φ, ?_⟩
  intro P Q hPQ hQ
  rcases Q with _ | ⟨x, y, k⟩
  · exact absurd rfl hQ
  · have hxy := ((C24_to_xy hPQ).2 x y k rfl).2
    rw [hφ]
    unfold CrvIso.eval Pt.newXY
    rw [hxy, cu, cv]
    exact ⟨one_ne_zero, (mul_one _).symm, (mul_one _).symm⟩

/-- Infinity is never mapped to infinity: the result is the triple `(v : 0 : 1)`. -/
theorem C31_infinity_fails (f : CrvIso K) (P : Pt K) (hP : P.Z = 0) :
    f.eval P = ⟨f.v, 0, 1⟩ ∧ (f.eval P).isInf = false := by
  have : f.eval P = ⟨f.v, 0, 1⟩ := by
    simp [CrvIso.eval, Pt.newXY, Pt.toXY, hP]
  exact ⟨this, by rw [this]; simp [Pt.isInf]⟩

/-- The map from a curve to itself sends the curve point `(0, 0)` off the curve. -/
theorem C31_same_curve_fails [RootOps K] {E : Crv K} (hE : E.Good) (h3 : (3 : K) ≠ 0) (ha : E.A ≠ 0)
    (hA3 : E.A * E.A ≠ 3) (hA9 : 2 * (E.A * E.A) ≠ 9) :
    E.onCurve ⟨0, 0, 1⟩ = true ∧ E.onCurve ((CrvIso.new E E).eval ⟨0, 0, 1⟩) = false := by
  have h3' : 3 - E.A * E.A ≠ 0 := sub_ne_zero.mpr hA3.symm
  refine ⟨((C28_on_curve hE _).2).mpr (Or.inr (by ring)), ?_⟩
  have hv : (CrvIso.new E E).v * E.A = -3 := by
    simp only [CrvIso.new]
    rw [div_mul_eq_mul_div, div_eq_iff (mul_ne_zero ha h3')]
    ring
  have he : (CrvIso.new E E).eval ⟨0, 0, 1⟩ = ⟨(CrvIso.new E E).v, 0, 1⟩ := by
    simp [CrvIso.eval, Pt.newXY, Pt.toXY]
  rw [he]
  generalize (CrvIso.new E E).v = v at hv
  rw [Bool.eq_false_iff]
  intro h
  rw [(C28_on_curve hE _).2] at h
  rcases h with h | h
  · exact one_ne_zero h
  · simp only at h
    have hv0 : v ≠ 0 := by
      rintro rfl
      rw [zero_mul] at hv
      exact h3 (by linear_combination hv)
    have h' : v * (v * v + E.A * v + 1) = 0 := by linear_combination -h
    have h'' := (mul_eq_zero.mp h').resolve_left hv0
    apply hA9
    have : v * E.A * (v * E.A) - 2 * (E.A * E.A) = 0 := by
      linear_combination E.A * E.A * h'' - E.A * E.A * hv
    rw [hv] at this
    linear_combination -this

/-- `y^2 = x^3 + 11 x^2 + x` over the field with 29 elements, isomorphic to the curve above. -/
def tE2 : Crv F29 := ⟨11, 13 / 4⟩
theorem tE2_good : tE2.Good := ⟨by decide, by decide, by decide +kernel⟩
theorem tE_iso : IsoOver tE.A tE2.A :=
  ⟨⟨⟨7, 25, by decide, by decide⟩, 13, 0, 0⟩, by
    rw [WeierstrassCurve.variableChange_def]
    ext <;> simp only [mont, tE, tE2, Units.inv_mk] <;> decide⟩
example : tE.Good ∧ tE2.Good ∧ IsoOver tE.A tE2.A ∧ tE.A * tE.A ≠ tE2.A * tE2.A ∧
    tE.A ≠ 0 ∧ tE2.A ≠ 0 ∧ tE.A * tE.A ≠ 3 :=
  ⟨tE_good, tE2_good, tE_iso, by decide, by decide, by decide, by decide⟩
example : tE2.onCurve ((CrvIso.new tE tE2).eval ⟨2, 6, 2⟩) = true := by decide +kernel

example : tE.Good ∧ (3 : F29) ≠ 0 ∧ tE.A ≠ 0 ∧ tE.A * tE.A ≠ 3 ∧ 2 * (tE.A * tE.A) ≠ 9 :=
  ⟨tE_good, by decide, by decide, by decide, by decide⟩

/-! ### C32 -/

/-- `j_invariant` is the j-invariant of the curve. -/
theorem C32_j_invariant {E : Crv K} (hE : E.Good) :
    ∃ _ : (mont E.A).IsElliptic, (mont E.A).j = E.jInvariant := by
  have := mont_elliptic hE.two hE.disc
  exact ⟨this, j_eq hE.two hE.disc⟩

/-- It agrees on isomorphic curves. -/
theorem C32_isomorphic {E1 E2 : Crv K} (h1 : E1.Good) (h2 : E2.Good) (h : IsoOver E1.A E2.A) :
    E1.jInvariant = E2.jInvariant := by
  obtain ⟨C, hC⟩ := h
  have e1 := mont_elliptic h1.two h1.disc
  have e2 := mont_elliptic h2.two h2.disc
  rw [← j_eq h1.two h1.disc, ← j_eq h2.two h2.disc]
  have key : ∀ (W : WeierstrassCurve.Affine K) [W.IsElliptic], C • mont E1.A = W → (mont E1.A).j = W.j := by
    intro W hW e
    subst e
    exact (WeierstrassCurve.variableChange_j (mont E1.A) C).symm
  exact key _ hC

example : tE.Good ∧ tE.jInvariant = 256 * (49 - 3) ^ 3 / (49 - 4) := ⟨tE_good, by decide +kernel⟩

/-! ### C29, C33, C58 -/

section
variable [RootOps K]

theorem sqrt_cases (a : K) :
    ((sqrt a).2 = true ∧ IsSquare a ∧ (sqrt a).1 * (sqrt a).1 = a) ∨
    ((sqrt a).2 = false ∧ ¬ IsSquare a ∧ (sqrt a).1 = 0) := by
  by_cases h : IsSquare a
  · exact Or.inl ⟨(sqrt_sq a h).1, h, (sqrt_sq a h).2⟩
  · exact Or.inr ⟨by rw [sqrt_nonsq a h], h, by rw [sqrt_nonsq a h]⟩

theorem legendre_nonneg (a : K) : legendre a ≥ 0 ↔ IsSquare a := by
  by_cases h : IsSquare a
  · refine ⟨fun _ => h, fun _ => ?_⟩
    by_cases h0 : a = 0
    · rw [(legendre_zero a).mpr h0]
    · rw [(legendre_one a).mpr ⟨h0, h⟩]; decide
  · rw [(legendre_neg a).mpr h]
    exact ⟨fun h' => absurd h' (by decide), fun h' => absurd h' h⟩

/-- Lifting an x-only point: the status tells whether a point with this x-coordinate exists, the
result is one if so, and infinity otherwise. -/
theorem C29_complete {E : Crv K} (hE : E.Good) (P : PtX K) :
    ((E.completePointX P).2 = true ↔
      P.Z = 0 ∨ ∃ x y, ∃ _ : (mont E.A).Nonsingular x y, P.X = x * P.Z) ∧
    ((E.completePointX P).2 = true → P.X ≠ 0 ∨ P.Z ≠ 0 →
      ∃ Q : MPoint E.A, KRep P.X P.Z Q ∧ PRep (E.completePointX P).1 Q) ∧
    ((E.completePointX P).2 = false → (E.completePointX P).1.isInf = true) := by
  have e1 : (E.completePointX P).2 =
    (sqrt (((P.X + P.Z) * (P.X + P.Z) + (E.A - 2) * (P.X * P.Z)) * (P.X * P.Z))).2 := rfl
  have e2 : (E.completePointX P).1 = ⟨P.X * P.Z,
    (sqrt (((P.X + P.Z) * (P.X + P.Z) + (E.A - 2) * (P.X * P.Z)) * (P.X * P.Z))).1,
    cond' (P.Z * P.Z) 0 (!(E.completePointX P).2)⟩ := rfl
  rw [e2, e1]
  generalize hV : ((P.X + P.Z) * (P.X + P.Z) + (E.A - 2) * (P.X * P.Z)) * (P.X * P.Z) = V
  have hsq : ∀ x y, P.X = x * P.Z → y * y = x * x * x + E.A * x * x + x → IsSquare V := by
    intro x y hx hy
    refine ⟨y * (P.Z * P.Z), ?_⟩
    rw [← hV, hx]
    linear_combination -(P.Z ^ 4) * hy
  have hpt : P.Z ≠ 0 → (sqrt V).1 * (sqrt V).1 = V →
      ∃ h, PRep ⟨P.X * P.Z, (sqrt V).1, P.Z * P.Z⟩
        (.some (P.X / P.Z) ((sqrt V).1 / (P.Z * P.Z)) h : MPoint E.A) := by
    intro hz hs
    refine ⟨nonsing_of hE.two hE.disc ?_, mul_ne_zero hz hz, ?_, ?_⟩
    · field_simp
      have : (sqrt V).1 ^ 2 = V := by rw [pow_two]; exact hs
      rw [this, ← hV]; ring
    · simp only; field_simp
    · simp only; field_simp
  refine ⟨⟨fun h => ?_, fun h => ?_⟩, fun h h0 => ?_, fun h => ?_⟩
  · by_cases hz : P.Z = 0
    · exact Or.inl hz
    · right
      rcases sqrt_cases V with ⟨-, -, hs⟩ | ⟨h', -⟩
      · obtain ⟨k, -⟩ := hpt hz hs
        exact ⟨_, _, k, (div_mul_cancel₀ _ hz).symm⟩
      · rw [h] at h'; exact absurd h' (by decide)
  · refine (sqrt_sq V ?_).1
    rcases h with hz | ⟨x, y, k, hx⟩
    · refine ⟨0, ?_⟩
      rw [← hV, hz]; ring
    · exact hsq x y hx (curve_eq k)
  · rw [h]
    by_cases hz : P.Z = 0
    · refine ⟨0, ⟨h0.resolve_right (not_not.mpr hz), hz⟩, ?_⟩
      change cond' (P.Z * P.Z) 0 (!true) = 0
      simp [cond', hz]
    · rcases sqrt_cases V with ⟨-, -, hs⟩ | ⟨h', -⟩
      · obtain ⟨k, hk⟩ := hpt hz hs
        exact ⟨.some _ _ k, ⟨hz, (div_mul_cancel₀ _ hz).symm⟩, hk⟩
      · rw [h] at h'; exact absurd h' (by decide)
  · rw [h]; simp [Pt.isInf, cond']

example : (tE.completePointX ⟨2, 2⟩).2 = true ∧ (tE.completePointX ⟨2, 1⟩).2 = true ∧
    (tE.completePointX ⟨3, 1⟩).2 = true ∧ (tE.completePointX ⟨5, 1⟩).2 = false := by decide +kernel

/-- `x^3 + A x^2 + x`. -/
def curveRhs (A x : K) : K := x ^ 3 + A * x ^ 2 + x

omit [DecidableEq K] [RootOps K] in
theorem rhsOf_eq (A x : K) : rhsOf A x = curveRhs A x := by
  simp only [rhsOf, curveRhs]; ring

theorem search_spec (A : K) (k : Nat) (x : K) :
    (∀ x' y, CrvIter.search A k x = some (x', y) → ∃ j, j < k ∧ x' = x + j ∧
      y * y = curveRhs A x' ∧ ∀ i < j, ¬ IsSquare (curveRhs A (x + i))) ∧
    (CrvIter.search A k x = none → ∀ i < k, ¬ IsSquare (curveRhs A (x + i))) := by
  induction k generalizing x with
  | zero => exact ⟨fun _ _ h => absurd h (by simp [CrvIter.search]), fun _ i hi => absurd hi (by omega)⟩
  | succ k ih =>
    have e : CrvIter.search A (k + 1) x = if legendre (rhsOf A x) ≥ 0 then
      some (x, (sqrt (rhsOf A x)).1) else CrvIter.search A k (x + 1) := rfl
    rw [e, rhsOf_eq]
    by_cases hs : IsSquare (curveRhs A x)
    · rw [if_pos ((legendre_nonneg _).mpr hs)]
      refine ⟨fun x' y h => ?_, fun h => absurd h (by simp)⟩
      simp only [Option.some.injEq, Prod.mk.injEq] at h
      obtain ⟨rfl, rfl⟩ := h
      exact ⟨0, by omega, by simp, (sqrt_sq _ hs).2, fun i hi => absurd hi (by omega)⟩
    · rw [if_neg (fun h => hs ((legendre_nonneg _).mp h))]
      obtain ⟨i1, i2⟩ := ih (x + 1)
      have shift : ∀ i : Nat, x + 1 + (i : K) = x + ((i + 1 : Nat) : K) := by
        intro i; push_cast; ring
      have cons : ∀ n, (∀ i < n, ¬ IsSquare (curveRhs A (x + 1 + (i : Nat)))) →
          ∀ i < n + 1, ¬ IsSquare (curveRhs A (x + (i : Nat))) := by
        intro n h i hi
        cases i with
        | zero => simpa using hs
        | succ i => rw [← shift]; exact h i (by omega)
      refine ⟨fun x' y h => ?_, fun h => cons _ (i2 h)⟩
      obtain ⟨j, h1, h2, h3, h4⟩ := i1 x' y h
      exact ⟨j + 1, by omega, by rw [h2, shift], h3, cons _ h4⟩

/-- One call of the iterator started at `x`: it returns the curve point with the first of the
abscissas `x, x+1, ...` for which there is one, within 1000 attempts; otherwise it returns nothing
and its state does not change. -/
theorem C33_next {E : Crv K} (hE : E.Good) (x : K) :
    (∀ P, (CrvIter.next ⟨E.A, x⟩).1 = some P → ∃ k : Nat, k < 1000 ∧ P.X = x + k ∧ P.Z = 1 ∧
      E.onCurve P = true ∧ (∀ i < k, ¬ IsSquare (curveRhs E.A (x + (i : Nat)))) ∧
      (CrvIter.next ⟨E.A, x⟩).2 = ⟨E.A, x + ((k + 1 : Nat) : K)⟩) ∧
    ((CrvIter.next ⟨E.A, x⟩).1 = none →
      (∀ i < 1000, ¬ IsSquare (curveRhs E.A (x + (i : Nat)))) ∧
      (CrvIter.next ⟨E.A, x⟩).2 = ⟨E.A, x⟩) := by
  obtain ⟨s1, s2⟩ := search_spec E.A 1000 x
  unfold CrvIter.next
  rcases hs : CrvIter.search E.A 1000 x with _ | ⟨x', y⟩
  · exact ⟨fun P h => absurd h (by simp), fun _ => ⟨s2 hs, rfl⟩⟩
  · obtain ⟨j, h1, h2, h3, h4⟩ := s1 x' y hs
    refine ⟨fun P h => ?_, fun h => absurd h (by simp)⟩
    simp only [Option.some.injEq] at h
    subst h
    refine ⟨j, h1, h2, rfl, ?_, h4, ?_⟩
    · rw [(C28_on_curve hE _).2]
      right
      simp only [curveRhs] at h3 ⊢
      linear_combination h3
    · simp only [h2]
      push_cast
      rw [add_assoc]

/-- Collecting up to `n` points, as `take(n)` does. -/
def CrvIter.run : Nat → CrvIter K → List (Pt K) × CrvIter K
  | 0, it => ([], it)
  | n + 1, it =>
    match it.next with
    | (none, it') => ([], it')
    | (some P, it') => (P :: (CrvIter.run n it').1, (CrvIter.run n it').2)

theorem run_spec {E : Crv K} (hE : E.Good) (x0 : K) (n m : Nat) :
    ∃ (ks : List Nat) (m' : Nat), ks.Pairwise (· < ·) ∧ (∀ k ∈ ks, m ≤ k ∧ k < m') ∧ m ≤ m' ∧
      (CrvIter.run n ⟨E.A, x0 + (m : Nat)⟩).2 = ⟨E.A, x0 + (m' : Nat)⟩ ∧
      (CrvIter.run n ⟨E.A, x0 + (m : Nat)⟩).1.map Pt.X = ks.map (fun k => x0 + (k : Nat)) ∧
      (∀ P ∈ (CrvIter.run n ⟨E.A, x0 + (m : Nat)⟩).1, P.Z = 1 ∧ E.onCurve P = true) ∧
      (∀ j, m ≤ j → j < m' → j ∉ ks → ¬ IsSquare (curveRhs E.A (x0 + (j : Nat)))) := by
  induction n generalizing m with
  | zero =>
    exact ⟨[], m, List.Pairwise.nil, by simp, le_rfl, rfl, rfl, by simp [CrvIter.run],
      fun j h1 h2 => absurd h2 (by omega)⟩
  | succ n ih =>
    obtain ⟨n1, n2⟩ := C33_next hE (x0 + (m : Nat))
    rcases hn : CrvIter.next (⟨E.A, x0 + (m : Nat)⟩ : CrvIter K) with ⟨_ | P, it'⟩
    · rw [hn] at n2
      have e : CrvIter.run (n + 1) (⟨E.A, x0 + (m : Nat)⟩ : CrvIter K) = ([], it') := by
        simp only [CrvIter.run, hn]
      rw [e]
      obtain ⟨-, h2⟩ := n2 rfl
      exact ⟨[], m, List.Pairwise.nil, by simp, le_rfl, h2, rfl, by simp,
        fun j h1 h2 => absurd h2 (by omega)⟩
    · rw [hn] at n1
      obtain ⟨k, -, hX, hZ, hon, hns, hst⟩ := n1 P rfl
      have e : CrvIter.run (n + 1) (⟨E.A, x0 + (m : Nat)⟩ : CrvIter K) =
          (P :: (CrvIter.run n it').1, (CrvIter.run n it').2) := by
        simp only [CrvIter.run, hn]
      simp only at hst
      have hst' : it' = ⟨E.A, x0 + ((m + k + 1 : Nat) : K)⟩ := by
        rw [hst]; congr 1; push_cast; ring
      obtain ⟨ks, m', i1, i2, i3, i4, i5, i6, i7⟩ := ih (m + k + 1)
      rw [e, hst']
      refine ⟨(m + k) :: ks, m', ?_, ?_, by omega, i4, ?_, ?_, ?_⟩
      · rw [List.pairwise_cons]
        exact ⟨fun a ha => by have := i2 a ha; omega, i1⟩
      · intro a ha
        rcases List.mem_cons.mp ha with rfl | ha
        · omega
        · have := i2 a ha; omega
      · rw [List.map_cons, List.map_cons, i5, hX]
        congr 1
        push_cast; ring
      · intro Q hQ
        rcases List.mem_cons.mp hQ with rfl | hQ
        · exact ⟨hZ, hon⟩
        · exact i6 Q hQ
      · intro j h1 h2 h3
        rw [List.mem_cons, not_or] at h3
        rcases Nat.lt_or_ge j (m + k) with h | h
        · have := hns (j - m) (by omega)
          rw [add_assoc, ← Nat.cast_add, show m + (j - m) = j by omega] at this
          exact this
        · exact i7 j (by omega) h2 h3.2

/-- Any number of calls on a fresh iterator: all points returned are on the curve, their abscissas
are taken from `1 + i, 2 + i, 3 + i, ...` in increasing order, and an abscissa is skipped only if
no point of the curve has it. -/
theorem C33_iterate {E : Crv K} (hE : E.Good) (n : Nat) :
    ∃ (ks : List Nat) (m : Nat), ks.Pairwise (· < ·) ∧ (∀ k ∈ ks, k < m) ∧
      (CrvIter.run n (CrvIter.new E.A)).1.map Pt.X = ks.map (fun k : Nat => 1 + zeta + (k : K)) ∧
      (∀ P ∈ (CrvIter.run n (CrvIter.new E.A)).1, P.Z = 1 ∧ E.onCurve P = true) ∧
      (∀ j < m, j ∉ ks → ¬ IsSquare (curveRhs E.A (1 + zeta + (j : Nat)))) ∧
      (CrvIter.run n (CrvIter.new E.A)).2 = ⟨E.A, 1 + zeta + (m : Nat)⟩ := by
  obtain ⟨ks, m, h1, h2, -, h4, h5, h6, h7⟩ := run_spec hE (1 + zeta) n 0
  have e : (⟨E.A, 1 + zeta + ((0 : Nat) : K)⟩ : CrvIter K) = CrvIter.new E.A := by
    simp [CrvIter.new]
  rw [e] at h4 h5 h6
  exact ⟨ks, m, h1, fun k hk => (h2 k hk).2, h5, h6, fun j hj hn => h7 j (by omega) hj hn, h4⟩

example : (CrvIter.run 3 (CrvIter.new tE.A)).1.map Pt.X = [13, 15, 17] := by decide +kernel

/-! ### C58 -/

/-- The random point generator returns a curve point whose abscissa is the first drawn value that
has one, with the sign chosen by the drawn bit, whatever the draws. -/
theorem C58_rand_point {E : Crv K} (hE : E.Good) (draws : List (K × Bool)) :
    (∀ P, E.randPoint draws = some P → E.onCurve P = true ∧ P.Z = 1 ∧
      ∃ pre b post, draws = pre ++ (P.X, b) :: post ∧
        (∀ d ∈ pre, ¬ IsSquare (curveRhs E.A d.1)) ∧
        P.Y = if b then -(sqrt (curveRhs E.A P.X)).1 else (sqrt (curveRhs E.A P.X)).1) ∧
    (E.randPoint draws = none ↔ ∀ d ∈ draws, ¬ IsSquare (curveRhs E.A d.1)) := by
  induction draws with
  | nil => simp [Crv.randPoint]
  | cons d ds ih =>
    obtain ⟨x, b⟩ := d
    have e : E.randPoint ((x, b) :: ds) = if legendre (rhsOf E.A x) ≥ 0 then
      some ⟨x, cond' (sqrt (rhsOf E.A x)).1 (-(sqrt (rhsOf E.A x)).1) b, 1⟩
      else E.randPoint ds := rfl
    rw [e, rhsOf_eq]
    by_cases hs : IsSquare (curveRhs E.A x)
    · rw [if_pos ((legendre_nonneg _).mpr hs)]
      have h2 := (sqrt_sq _ hs).2
      refine ⟨fun P h => ?_, by simp [hs]⟩
      simp only [Option.some.injEq] at h
      subst h
      refine ⟨?_, rfl, [], b, ds, rfl, by simp, rfl⟩
      rw [(C28_on_curve hE _).2]
      right
      simp only [curveRhs] at h2 ⊢
      cases b
      · simp only [cond', Bool.false_eq_true, if_false]
        linear_combination h2
      · simp only [cond', if_true]
        linear_combination h2
    · rw [if_neg (fun h => hs ((legendre_nonneg _).mp h))]
      refine ⟨fun P h => ?_, ?_⟩
      · obtain ⟨h1, h2, pre, b', post, h3, h4, h5⟩ := ih.1 P h
        refine ⟨h1, h2, (x, b) :: pre, b', post, by rw [h3]; rfl, ?_, h5⟩
        intro d hd
        rcases List.mem_cons.mp hd with rfl | hd
        · exact hs
        · exact h4 d hd
      · rw [ih.2]
        simp [hs]

example : tE.randPoint [(5, true), (1, true), (0, false)] = some ⟨1, 26, 1⟩ := by decide +kernel

end

/-! ### C59 -/

/-- The operations on a product of two curves are those of the product group. -/
theorem C59_product {E : EProd K} (h1 : E.E1.Good) (h2 : E.E2.Good) {C C' : CPt K}
    {Q Q' : MPoint E.E1.A × MPoint E.E2.A} (hC : PRep C.P1 Q.1 ∧ PRep C.P2 Q.2)
    (hC' : PRep C'.P1 Q'.1 ∧ PRep C'.P2 Q'.2) (n : Nat) :
    (PRep (E.add C C').P1 (Q + Q').1 ∧ PRep (E.add C C').P2 (Q + Q').2) ∧
    (PRep (E.double C).P1 (2 • Q).1 ∧ PRep (E.double C).P2 (2 • Q).2) ∧
    (PRep (E.doubleIter C n).P1 ((2 ^ n) • Q).1 ∧ PRep (E.doubleIter C n).P2 ((2 ^ n) • Q).2) :=
  ⟨⟨prep_add h1 hC.1 hC'.1, prep_add h2 hC.2 hC'.2⟩, ⟨prep_double h1 hC.1, prep_double h2 hC.2⟩,
    ⟨prep_doubleIter h1 hC.1 n, prep_doubleIter h2 hC.2 n⟩⟩

example : PRep (⟨2, 6, 2⟩ : Pt F29) (tQ, tT).1 ∧ PRep (⟨0, 0, 7⟩ : Pt F29) (tQ, tT).2 :=
  ⟨tQ_rep, tT_rep⟩

/-! ### C60 -/

/-- A curve value is built exactly when the curve is not singular, and it then has the given
coefficient and the constant the ladder relies on. -/
theorem C60_curve_new (h2 : (2 : K) ≠ 0) (A : K) :
    (Crv.new A = none ↔ A * A = 4) ∧
    (∀ E, Crv.new A = some E → E.A = A ∧ E.Good ∧ (mont A).IsElliptic) := by
  have hz : A * A = 4 ↔ A = 2 ∨ A + 2 = 0 := by
    rw [← sub_eq_zero (a := A) (b := 2), ← mul_eq_zero]
    constructor <;> intro h <;> linear_combination h
  constructor
  · unfold Crv.new
    rw [hz]
    by_cases h : A = 2
    · simp [h]
    · by_cases h' : A + 2 = 0 <;> simp [h, h']
  · intro E h
    unfold Crv.new at h
    by_cases e1 : A = 2
    · simp [e1] at h
    · by_cases e2 : A + 2 = 0
      · simp [e1, e2] at h
      · simp only [e1, e2, if_false, Option.some.injEq] at h
        subst h
        have hd : A * A ≠ 4 := fun h => by
          rcases hz.mp h with h | h
          · exact e1 h
          · exact e2 h
        refine ⟨rfl, ⟨h2, hd, ?_⟩, mont_elliptic h2 hd⟩
        simp only
        field_simp
        ring

example : Crv.new (2 : F29) = none ∧ Crv.new (27 : F29) = none ∧ Crv.new (7 : F29) = some tE := by
  decide +kernel
example : (2 : Fq) ≠ 0 := two_ne

end Festa
