import Verif.Lemmas.FpConv
import Verif.Lemmas.FestaParams
/-!
C03-C10: the base-field arithmetic.  `Rep P a x` reads "the limb vector `a` is reduced and stands for
the residue `x`"; each residue has exactly one such vector (`C03_canonical`).  The theorems hold for
every parameter set satisfying `FpParams.Valid`; `festa_valid` is the instance of the code.
-/
namespace Festa
variable {P : FpParams}

/-- Concrete elements of the FESTA field used in the examples: the representation of a 64-bit
integer. -/
theorem rep_lit (n : UInt64) : Rep festaFp (fpFromU64 festaFp n) (n.toNat : ZMod festaFp.p) :=
  rep_from_u64 festa_valid n

/-- Representations exist and are unique: every residue has exactly one reduced limb vector and
every reduced limb vector stands for exactly one residue. -/
theorem C03_canonical (hV : P.Valid) :
    (∀ x : ZMod P.p, ∃! a, Rep P a x) ∧ (∀ a, Reduced P a → ∃! x, Rep P a x) := by
  refine ⟨fun x => ?_, fun a ha => ?_⟩
  · obtain ⟨a, h⟩ := exists_rep hV x
    exact ⟨a, h, fun b hb => rep_inj hb h⟩
  · obtain ⟨x, h⟩ := exists_rep_val hV ha
    exact ⟨x, h, fun y hy => rep_unique hV hy h⟩

/-- Addition. -/
theorem C03_add (hV : P.Valid) {a b : Limbs} {x y : ZMod P.p} (ha : Rep P a x) (hb : Rep P b y) :
    Rep P (fpAdd P a b) (x + y) := rep_add hV ha hb

/-- Subtraction. -/
theorem C03_sub (hV : P.Valid) {a b : Limbs} {x y : ZMod P.p} (ha : Rep P a x) (hb : Rep P b y) :
    Rep P (fpSub P a b) (x - y) := rep_sub hV ha hb

/-- Negation. -/
theorem C03_neg (hV : P.Valid) {a : Limbs} {x : ZMod P.p} (ha : Rep P a x) :
    Rep P (fpNeg P a) (-x) := rep_neg hV ha

example : Rep festaFp (fpAdd festaFp (fpNeg festaFp (fpFromU64 festaFp 5)) (fpFromU64 festaFp 7))
    (-(5 : UInt64).toNat + (7 : UInt64).toNat : ZMod festaFp.p) :=
  C03_add festa_valid (C03_neg festa_valid (rep_lit 5)) (rep_lit 7)

/-- Multiplication. -/
theorem C04_mul (hV : P.Valid) {a b : Limbs} {x y : ZMod P.p} (ha : Rep P a x) (hb : Rep P b y) :
    Rep P (fpMul P a b) (x * y) := rep_mul hV ha hb

/-- Squaring. -/
theorem C04_square (hV : P.Valid) {a : Limbs} {x : ZMod P.p} (ha : Rep P a x) :
    Rep P (fpSquare P a) (x * x) := rep_square hV ha

/-- Squaring and multiplication by itself give the same limbs. -/
theorem C04_square_eq_mul (hV : P.Valid) {a : Limbs} (ha : Reduced P a) :
    fpSquare P a = fpMul P a a := by
  obtain ⟨x, h⟩ := exists_rep_val hV ha
  exact rep_inj (rep_square hV h) (rep_mul hV h h)

example : Reduced festaFp (fpFromU64 festaFp 0xFFFFFFFFFFFFFFFF) := (rep_lit _).1

/-- Halving: the result is the unique residue whose double is the input. -/
theorem C05_half (hV : P.Valid) {a : Limbs} {x : ZMod P.p} (ha : Rep P a x) :
    ∃ y, Rep P (fpHalf P a) y ∧ 2 * y = x := by
  obtain ⟨u, hu⟩ := isUnit_two hV
  have e : (u : ZMod P.p) * (u⁻¹ : (ZMod P.p)ˣ) = 1 := Units.mul_inv u
  have key : ((u⁻¹ : (ZMod P.p)ˣ) : ZMod P.p) * x + ((u⁻¹ : (ZMod P.p)ˣ) : ZMod P.p) * x = x := by
    calc _ = (u : ZMod P.p) * (u⁻¹ : (ZMod P.p)ˣ) * x := by rw [hu]; ring
      _ = x := by rw [e, one_mul]
  exact ⟨_, rep_half hV ha key, by rw [two_mul]; exact key⟩

/-- Doubling, and multiplication by 3, 4 and 8. -/
theorem C05_mul2348 (hV : P.Valid) {a : Limbs} {x : ZMod P.p} (ha : Rep P a x) :
    Rep P (fpMul2 P a) (2 * x) ∧ Rep P (fpMul3 P a) (3 * x) ∧ Rep P (fpMul4 P a) (4 * x) ∧
      Rep P (fpMul8 P a) (8 * x) := by
  have h2 := rep_mul2 hV ha
  have h4 := rep_mul2 hV h2
  have h8 := rep_mul2 hV h4
  have h3 := rep_add hV ha h2
  refine ⟨h2, ?_, ?_, ?_⟩
  · rw [show 3 * x = x + 2 * x by ring]; exact h3
  · rw [show 4 * x = 2 * (2 * x) by ring]; exact h4
  · rw [show 8 * x = 2 * (2 * (2 * x)) by ring]; exact h8

example : ∃ y, Rep festaFp (fpHalf festaFp (fpFromU64 festaFp 7)) y ∧ 2 * y = (7 : UInt64).toNat :=
  C05_half festa_valid (rep_lit 7)

/-- Multiplication by any 32-bit signed integer, including `i32::MIN`. -/
theorem C06_mul_small (hV : P.Valid) {a : Limbs} {x : ZMod P.p} (ha : Rep P a x) (k : Int32) :
    Rep P (fpMulSmall P a k) (x * (k.toInt : ZMod P.p)) := rep_mul_small hV ha k

example : Rep festaFp (fpMulSmall festaFp (fpFromU64 festaFp 3) (-2147483648))
    (((3 : UInt64).toNat : ZMod festaFp.p) * ((-2147483648 : Int32).toInt : ZMod festaFp.p)) :=
  C06_mul_small festa_valid (rep_lit 3) _

/-- `iszero` is the all-ones mask exactly for the zero element and 0 otherwise. -/
theorem C07_iszero (hV : P.Valid) {a : Limbs} {x : ZMod P.p} (ha : Rep P a x) :
    (x = 0 → fpIsZero a = 0xFFFFFFFF) ∧ (x ≠ 0 → fpIsZero a = 0) := by
  have key : lval a = 0 ↔ x = 0 := by
    constructor
    · intro h
      have h0 : Rep P a 0 := ⟨ha.1, by rw [h]; simp⟩
      exact rep_unique hV ha h0
    · intro h
      subst h
      have : a = fpZero P := rep_inj ha (rep_zero hV)
      rw [this]
      exact (lval_eq_zero_iff _).mpr (by intro y hy; exact List.eq_of_mem_replicate hy)
  rw [iszero_spec]
  refine ⟨fun h => ?_, fun h => ?_⟩
  · rw [decide_eq_true (key.mpr h)]; rfl
  · rw [decide_eq_false (fun hh => h (key.mp hh))]; rfl

/-- `equals` is the all-ones mask exactly when the two elements are the same field element. -/
theorem C07_equals (hV : P.Valid) {a b : Limbs} {x y : ZMod P.p} (ha : Rep P a x) (hb : Rep P b y) :
    (x = y → fpEquals a b = 0xFFFFFFFF) ∧ (x ≠ y → fpEquals a b = 0) := by
  have key : a = b ↔ x = y :=
    ⟨fun h => rep_unique hV ha (h ▸ hb), fun h => rep_inj ha (h ▸ hb)⟩
  rw [equals_spec (ha.1.1.trans hb.1.1.symm)]
  refine ⟨fun h => ?_, fun h => ?_⟩
  · rw [decide_eq_true (key.mpr h)]; rfl
  · rw [decide_eq_false (fun hh => h (key.mp hh))]; rfl

example : fpIsZero (fpZero festaFp) = 0xFFFFFFFF ∧ fpIsZero festaFp.R_VAL = 0 ∧
    fpEquals festaFp.R_VAL (fpFromU64 festaFp 1) = 0xFFFFFFFF := by decide +kernel

/-- `select` / `set_select` / `set_cond`: mask 0 keeps the first operand, the all-ones mask
returns the second one, limb for limb. -/
theorem C08_select {a b : Limbs} (h : a.length = b.length) :
    fpSelect a b 0 = a ∧ fpSelect a b 0xFFFFFFFF = b ∧ fpCond a b 0 = a ∧
      fpCond a b 0xFFFFFFFF = b :=
  ⟨select_zero h, select_ones h, select_zero h, select_ones h⟩

/-- `condswap`: mask 0 leaves the pair, the all-ones mask exchanges the two. -/
theorem C08_condswap {a b : Limbs} (h : a.length = b.length) :
    fpCondSwap a b 0 = (a, b) ∧ fpCondSwap a b 0xFFFFFFFF = (b, a) := by
  constructor <;> refine Prod.ext ?_ ?_
  · exact select_zero h
  · rw [swap_snd]; exact select_zero h.symm
  · exact select_ones h
  · rw [swap_snd]; exact select_ones h.symm

/-- `set_condneg`: mask 0 leaves the element, the all-ones mask negates it in the field. -/
theorem C08_condneg (hV : P.Valid) {a : Limbs} {x : ZMod P.p} (ha : Rep P a x) :
    fpCondNeg P a 0 = a ∧ Rep P (fpCondNeg P a 0xFFFFFFFF) (-x) := by
  have h0 := rep_condneg hV ha false
  have h1 := rep_condneg hV ha true
  exact ⟨rep_inj (by simpa [ctlOf] using h0) ha, by simpa [ctlOf] using h1⟩

example : festaFp.R_VAL.length = festaFp.DR_VAL.length ∧
    fpCondSwap festaFp.R_VAL festaFp.DR_VAL 0xFFFFFFFF = (festaFp.DR_VAL, festaFp.R_VAL) := by
  decide +kernel

/-- Conversions from unsigned integers. -/
theorem C09_from_unsigned (hV : P.Valid) :
    (∀ n : UInt64, Rep P (fpFromU64 P n) (n.toNat : ZMod P.p)) ∧
    (∀ n : UInt32, Rep P (fpFromU32 P n) (n.toNat : ZMod P.p)) := by
  refine ⟨rep_from_u64 hV, fun n => ?_⟩
  have := rep_from_u64 hV n.toUInt64
  rwa [show n.toUInt64.toNat = n.toNat from by simp] at this

/-- Conversions from signed integers, minima included. -/
theorem C09_from_signed (hV : P.Valid) :
    (∀ n : Int32, Rep P (fpFromI32 P n) (n.toInt : ZMod P.p)) ∧
    (∀ n : Int64, Rep P (fpFromI64 P n) (n.toInt : ZMod P.p)) :=
  ⟨rep_from_i32 hV, rep_from_i64 hV⟩

example : Rep festaFp (fpFromI64 festaFp Int64.minValue) ((-2 ^ 63 : Int) : ZMod festaFp.p) :=
  (C09_from_signed festa_valid).2 Int64.minValue

/-- Fused dot products. -/
theorem C10_products (hV : P.Valid) {a1 b1 a2 b2 : Limbs} {x1 y1 x2 y2 : ZMod P.p}
    (h1 : Rep P a1 x1) (k1 : Rep P b1 y1) (h2 : Rep P a2 x2) (k2 : Rep P b2 y2) :
    Rep P (fpSumOfProducts P a1 b1 a2 b2) (x1 * y1 + x2 * y2) ∧
    Rep P (fpDiffOfProducts P a1 b1 a2 b2) (x1 * y1 - x2 * y2) :=
  ⟨rep_sum_of_products hV h1 k1 h2 k2, rep_diff_of_products hV h1 k1 h2 k2⟩

example : Rep festaFp (fpDiffOfProducts festaFp (fpFromU64 festaFp 2) (fpFromU64 festaFp 3)
      (fpFromU64 festaFp 5) (fpFromU64 festaFp 7))
    (((2 : UInt64).toNat : ZMod festaFp.p) * (3 : UInt64).toNat - (5 : UInt64).toNat * (7 : UInt64).toNat) :=
  (C10_products festa_valid (rep_lit 2) (rep_lit 3) (rep_lit 5) (rep_lit 7)).2

end Festa
