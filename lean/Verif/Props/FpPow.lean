import Verif.Lemmas.FpPow
import Verif.Props.Fp
import Mathlib.NumberTheory.LegendreSymbol.Basic
/-! C13, C16, C17: powers and roots in the base field. -/
namespace Festa
variable {P : FpParams}

/-- `pow_ext` raises to the exponent held in bits `eoff .. eoff + ebitlen` of the byte string.
(`set_pow(e, ebitlen)` is `pow_ext(e, 0, ebitlen)`.) -/
theorem C13_pow_ext (hV : P.Valid) {a : Limbs} {x : ZMod P.p} (ha : Rep P a x) (e : List UInt8)
    (eoff n : Nat) (h : eoff + n ≤ 8 * e.length ∨ n = 0) :
    ∃ r, fpPowExt P a e eoff n = some r ∧ Rep P r (x ^ (bval e / 2 ^ eoff % 2 ^ n)) :=
  powExt_spec hV ha e eoff n h

/-- It panics (index out of bounds) exactly when asked for bits beyond the end of the string. -/
theorem C13_pow_ext_panics (hV : P.Valid) {a : Limbs} (ha : Reduced P a) (e : List UInt8)
    (eoff n : Nat) : fpPowExt P a e eoff n = none ↔ 8 * e.length < eoff + n ∧ n ≠ 0 := by
  constructor
  · intro hn
    by_contra hc
    obtain ⟨x, hx⟩ := exists_rep_val hV ha
    obtain ⟨r, hr, _⟩ := powExt_spec hV hx e eoff n (by omega)
    rw [hr] at hn
    exact absurd hn (by simp)
  · exact fun h => powExt_none P a e eoff n h.1 h.2

/-- `pow_big` computes every power and never panics; in particular `0^0 = 1`. -/
theorem C13_pow_big (hV : P.Valid) {a : Limbs} {x : ZMod P.p} (ha : Rep P a x) (e : Nat) :
    ∃ r, fpPowBig P a e = some r ∧ Rep P r (x ^ e) := powBig_spec hV ha e

example : fpPowBig festaFp (fpZero festaFp) 0 = some festaFp.R_VAL := by decide +kernel

/-- A 16-bit exponent starting at bit 8: `3^13`. -/
example : ∃ r, fpPowExt festaFp (fpFromU64 festaFp 3) [0xFF, 0x0D, 0x00] 8 16 = some r ∧
    Rep festaFp r (((3 : UInt64).toNat : ZMod festaFp.p) ^ 13) :=
  C13_pow_ext festa_valid (rep_lit 3) [0xFF, 0x0D, 0x00] 8 16 (Or.inl (by decide))

theorem rep_fourth (hV : P.Valid) {a : Limbs} {x : ZMod P.p} (ha : Rep P a x) :
    Rep P (fpSquare P (fpSquare P a)) (x ^ 4) := by
  have := rep_square hV (rep_square hV ha)
  rwa [show x * x * (x * x) = x ^ 4 by ring] at this

/-- Euler: for a square `x`, `x^((p+1)/4)` is a square root; for `p = 7 mod 8`,
`x^((p+1)/8)` is a fourth root. -/
theorem euler_pow (hR : P.RootValid) {x : ZMod P.p} (hx : IsSquare x) :
    x ^ ((P.p + 1) / 2) = x := by
  have := Fact.mk hR.prime
  have h8 := hR.mod8
  obtain ⟨z, rfl⟩ := hx
  rw [← pow_two, ← pow_mul, show 2 * ((P.p + 1) / 2) = P.p + 1 by omega, pow_succ,
    ZMod.pow_card, pow_two]

/-- Square root: status all-ones exactly for squares; then the result squares to the input and is
the root with even canonical integer; otherwise zero with status 0. -/
theorem C16_sqrt (hV : P.Valid) (hR : P.RootValid) {a : Limbs} {x : ZMod P.p} (ha : Rep P a x) :
    (IsSquare x → (fpSqrt P a).2 = 0xFFFFFFFF ∧
      ∃ s, Rep P (fpSqrt P a).1 s ∧ s * s = x ∧ s.val % 2 = 0) ∧
    (¬ IsSquare x → (fpSqrt P a).2 = 0 ∧ Rep P (fpSqrt P a).1 0) := by
  have := Fact.mk hR.prime
  have h8 := hR.mod8
  have hw := winPow_spec hV ha P.SQRT_EH P.SQRT_EL hR.sqrt_digits
  rw [hR.sqrt_exp] at hw
  have hs := rep_square hV hw
  have heq := C07_equals hV hs ha
  have e4 : x ^ ((P.p + 1) / 4) * x ^ ((P.p + 1) / 4) = x ^ ((P.p + 1) / 2) := by
    rw [← pow_add]; congr 1; omega
  obtain ⟨f0, s, f1, f2, f3⟩ := rootFinish_spec hV hw
  refine ⟨fun hx => ?_, fun hx => ?_⟩
  · have e := heq.1 (by rw [e4, euler_pow hR hx])
    refine ⟨e, s, ?_, ?_, f3⟩
    · simpa only [fpSqrt, e] using f1
    · have : s * s = x ^ ((P.p + 1) / 4) * x ^ ((P.p + 1) / 4) := by
        rcases f2 with h | h <;> rw [h] <;> ring
      rw [this, e4, euler_pow hR hx]
  · have e := heq.2 (fun h => hx ⟨_, h.symm⟩)
    refine ⟨e, ?_⟩
    simpa only [fpSqrt, e] using f0

/-- Fourth root: status all-ones exactly for fourth powers, equivalently for squares; then the
fourth power of the result is the input and the result is even; otherwise zero with status 0. -/
theorem C17_fourth_root (hV : P.Valid) (hR : P.RootValid) {a : Limbs} {x : ZMod P.p}
    (ha : Rep P a x) :
    ((∃ z, z ^ 4 = x) ↔ IsSquare x) ∧
    (IsSquare x → (fpFourthRoot P a).2 = 0xFFFFFFFF ∧
      ∃ s, Rep P (fpFourthRoot P a).1 s ∧ s ^ 4 = x ∧ s.val % 2 = 0) ∧
    (¬ IsSquare x → (fpFourthRoot P a).2 = 0 ∧ Rep P (fpFourthRoot P a).1 0) := by
  have := Fact.mk hR.prime
  have h8 := hR.mod8
  have hw := winPow_spec hV ha P.FOURTH_ROOT_EH P.FOURTH_ROOT_EL hR.fourth_digits
  rw [hR.fourth_exp] at hw
  have hs := rep_fourth hV hw
  have heq := C07_equals hV hs ha
  have e4 : (x ^ ((P.p + 1) / 8)) ^ 4 = x ^ ((P.p + 1) / 2) := by
    rw [← pow_mul]; congr 1; omega
  have hsq : ∀ z : ZMod P.p, z ^ 4 = x → IsSquare x := fun z h => ⟨z ^ 2, by rw [← h]; ring⟩
  obtain ⟨f0, s, f1, f2, f3⟩ := rootFinish_spec hV hw
  refine ⟨⟨fun ⟨z, h⟩ => hsq z h, fun hx => ⟨_, by rw [e4, euler_pow hR hx]⟩⟩,
    fun hx => ?_, fun hx => ?_⟩
  · have e := heq.1 (by rw [e4, euler_pow hR hx])
    refine ⟨e, s, ?_, ?_, f3⟩
    · simpa only [fpFourthRoot, e] using f1
    · have : s ^ 4 = (x ^ ((P.p + 1) / 8)) ^ 4 := by
        rcases f2 with h | h <;> rw [h] <;> ring
      rw [this, e4, euler_pow hR hx]
  · have e := heq.2 (fun h => hx (hsq _ h))
    refine ⟨e, ?_⟩
    simpa only [fpFourthRoot, e] using f0

/-- Both branches occur: 4 is a square of the FESTA field, -1 is not. -/
example : IsSquare (((4 : UInt64).toNat : ZMod festaFp.p)) ∧ ¬ IsSquare (-1 : ZMod festaFp.p) := by
  have := Fact.mk festa_prime
  refine ⟨⟨2, by norm_num [show (4 : UInt64).toNat = 4 from rfl]⟩, ?_⟩
  rw [ZMod.exists_sq_eq_neg_one_iff]
  decide +kernel

end Festa
