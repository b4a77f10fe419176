import Verif.Props.Consts
import Verif.Lemmas.Fr
import Verif.Lemmas.WeilNondeg
import Verif.Props.StartCurve
import Mathlib.FieldTheory.Finite.Basic
/-!
C79: the constants `P0x`, `P0y`, `Q0x`, `Q0y` of fields.rs, which the comment there calls a torsion basis of
`y² = x³ + 6x² + x`.  They are no points of this curve, because `Fp::new` takes numbers in Montgomery form and the numbers
given are not in that form.  Read as plain numbers they are points of the curve, but over the prime field, where there is no
basis of that order.
-/
namespace Festa
open WeierstrassCurve.Affine

/-- The limb vectors are reduced, so each stands for one element of the field. -/
theorem stored_reduced : Reduced festaFp p0x ∧ Reduced festaFp p0y ∧ Reduced festaFp q0x ∧ Reduced festaFp q0y := by
  refine ⟨⟨?_, ?_⟩, ⟨?_, ?_⟩, ⟨?_, ?_⟩, ⟨?_, ?_⟩⟩ <;> decide +kernel

theorem stored_off {x y : Limbs} {a b : ZMod festaFp.p} (hx : Rep festaFp x a) (hy : Rep festaFp y b)
    (h : (lval y ^ 2 * festaFp.R) % festaFp.p ≠ (lval x ^ 3 + 6 * lval x ^ 2 * festaFp.R + lval x * festaFp.R ^ 2) % festaFp.p) :
    b ^ 2 ≠ a ^ 3 + 6 * a ^ 2 + a := fun e => by
  apply h
  have : ((lval y ^ 2 * festaFp.R : Nat) : ZMod festaFp.p) =
      ((lval x ^ 3 + 6 * lval x ^ 2 * festaFp.R + lval x * festaFp.R ^ 2 : Nat) : ZMod festaFp.p) := by
    push_cast
    rw [hx.2, hy.2]
    linear_combination (festaFp.R : ZMod festaFp.p) ^ 3 * e
  exact (ZMod.natCast_eq_natCast_iff' _ _ _).mp this

/-- C79, refuted: the elements of the field that the constants are do not satisfy the equation of the curve. -/
theorem C79_stored_fails : ∃ px py qx qy : ZMod festaFp.p, Rep festaFp p0x px ∧ Rep festaFp p0y py ∧ Rep festaFp q0x qx ∧
    Rep festaFp q0y qy ∧ py ^ 2 ≠ px ^ 3 + 6 * px ^ 2 + px ∧ qy ^ 2 ≠ qx ^ 3 + 6 * qx ^ 2 + qx := by
  obtain ⟨r1, r2, r3, r4⟩ := stored_reduced
  obtain ⟨px, h1⟩ := exists_rep_val festa_valid r1
  obtain ⟨py, h2⟩ := exists_rep_val festa_valid r2
  obtain ⟨qx, h3⟩ := exists_rep_val festa_valid r3
  obtain ⟨qy, h4⟩ := exists_rep_val festa_valid r4
  exact ⟨px, py, qx, qy, h1, h2, h3, h4, stored_off h1 h2 (by decide +kernel), stored_off h3 h4 (by decide +kernel)⟩

/-- C79: the plain numbers satisfy the equation. -/
theorem C79_numbers : (lval p0y : ZMod festaFp.p) ^ 2 = (lval p0x : ZMod festaFp.p) ^ 3 + 6 * (lval p0x : ZMod festaFp.p) ^ 2 + lval p0x ∧
    (lval q0y : ZMod festaFp.p) ^ 2 = (lval q0x : ZMod festaFp.p) ^ 3 + 6 * (lval q0x : ZMod festaFp.p) ^ 2 + lval q0x := by
  have key : ∀ x y : Nat, y ^ 2 % festaFp.p = (x ^ 3 + 6 * x ^ 2 + x) % festaFp.p →
      (y : ZMod festaFp.p) ^ 2 = (x : ZMod festaFp.p) ^ 3 + 6 * (x : ZMod festaFp.p) ^ 2 + x := fun x y h => by
    have := (ZMod.natCast_eq_natCast_iff' _ _ _).mpr h
    push_cast at this
    exact this
  exact ⟨key _ _ (by decide +kernel), key _ _ (by decide +kernel)⟩

/-- C79: over a finite field with `q` elements a curve has a basis of order `n` only if `n` divides `q - 1`. -/
theorem C79_base_field {K : Type*} [Field K] [DecidableEq K] [Fintype K] {A : K} (h2 : (2 : K) ≠ 0) (hA : A * A ≠ 4)
    {P Q : MPoint A} {n : Nat} (hn : 2 ≤ n) (hb : IsBasis n P Q) : n ∣ Fintype.card K - 1 := by
  have ho := hb.we_orderOf h2 hA hn
  rw [← ho]
  apply orderOf_dvd_of_pow_eq_one
  apply FiniteField.pow_card_sub_one_eq_one
  intro h0
  have := pow_orderOf_eq_one (we n P Q)
  rw [ho, h0, zero_pow (by omega)] at this
  exact zero_ne_one this

/-- The field of the code, where the starting curve has a basis of order `2^634`. -/
example : ∃ (A : Fq) (P Q : MPoint A), (2 : Fq) ≠ 0 ∧ A * A ≠ 4 ∧ 2 ≤ 2 ^ L_POWER ∧ IsBasis (2 ^ L_POWER) P Q := by
  obtain ⟨E, -, hA, hE⟩ := start_curve_exists
  obtain ⟨-, -, -, P, Q, -, -, h⟩ := C69_start_basis hE hA
  exact ⟨E.A, P, Q, hE.two, hE.disc, by decide +kernel, h⟩

/-- C79: two points of the starting curve over the prime field are no basis of an order dividing the basis order of the code,
except for the orders 1 and 2. -/
theorem C79_no_basis [Fact festaFp.p.Prime] {n : Nat} (hn : 3 ≤ n) (hd : n ∣ ofSlice BASIS_ORDER) (P Q : MPoint (6 : ZMod festaFp.p)) :
    ¬IsBasis n P Q := fun hb => by
  have e : ofSlice BASIS_ORDER = festaFp.p + 1 := by decide +kernel
  have h2 : (2 : ZMod festaFp.p) ≠ 0 := fun h => by
    have : ((2 : Nat) : ZMod festaFp.p) = ((0 : Nat) : ZMod festaFp.p) := by exact_mod_cast h
    exact absurd ((ZMod.natCast_eq_natCast_iff' _ _ _).mp this) (by decide +kernel)
  have h4 : (6 : ZMod festaFp.p) * 6 ≠ 4 := fun h => by
    have : ((6 * 6 : Nat) : ZMod festaFp.p) = ((4 : Nat) : ZMod festaFp.p) := by exact_mod_cast h
    exact absurd ((ZMod.natCast_eq_natCast_iff' _ _ _).mp this) (by decide +kernel)
  have hp : 2 ≤ festaFp.p := (Fact.out : festaFp.p.Prime).two_le
  have := C79_base_field h2 h4 (by omega) hb
  rw [ZMod.card] at this
  rw [e] at hd
  have key : ∀ p : Nat, 2 ≤ p → n ∣ p + 1 → n ∣ p - 1 → False := fun p hp hd this => by
    have h := Nat.dvd_sub hd this
    rw [show p + 1 - (p - 1) = 2 by omega] at h
    have := Nat.le_of_dvd (by norm_num) h
    omega
  exact key _ hp hd this

/-- The hypotheses of `C79_no_basis` are met by the order that the comment means. -/
example [Fact festaFp.p.Prime] (P Q : MPoint (6 : ZMod festaFp.p)) : ¬IsBasis (ofSlice BASIS_ORDER) P Q :=
  C79_no_basis (by decide +kernel) dvd_rfl P Q

end Festa
