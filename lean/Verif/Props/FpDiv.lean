import Verif.Lemmas.FpLegendre
import Verif.Props.FpPow
/-!
C14, C15: division, inversion and the Legendre symbol in the base field, for the whole
constant-time binary GCD (scan for the top words, 31 inner steps on 64-bit approximations, update
with `lindiv31abs` and `montylin`, fixed numbers of rounds).
-/
namespace Festa
variable {P : FpParams}

/-- The division constant of the code satisfies the relation the division needs. -/
theorem C14_constant : festaFp.DivValid :=
  ⟨by decide +kernel, by decide +kernel, by decide +kernel⟩

/-- Division by a non-zero element returns the quotient. -/
theorem C14_div (hV : P.Valid) (hD : P.DivValid) (hp : P.p.Prime) {a b : Limbs} {x y : ZMod P.p}
    (ha : Rep P a x) (hb : Rep P b y) (hy : y ≠ 0) :
    ∃ z, Rep P (fpDiv P a b) z ∧ z * y = x ∧ ∀ z', z' * y = x → z' = z := by
  have : Fact P.p.Prime := ⟨hp⟩
  refine ⟨x * y⁻¹, rep_div hV hD hp ha hb hy ?_, ?_, ?_⟩
  · rw [mul_assoc, inv_mul_cancel₀ hy, mul_one]
  · rw [mul_assoc, inv_mul_cancel₀ hy, mul_one]
  · intro z' h
    rw [← h, mul_assoc, mul_inv_cancel₀ hy, mul_one]

/-- Division by zero returns zero. -/
theorem C14_div_by_zero (hV : P.Valid) (hD : P.DivValid) {a b : Limbs} {x : ZMod P.p}
    (ha : Rep P a x) (hb : Rep P b 0) : fpDiv P a b = fpZero P :=
  rep_inj (rep_div_zero hV hD ha hb) (rep_zero hV)

/-- At the level of the code: dividing and multiplying back gives the same limbs. -/
theorem C14_div_mul (hV : P.Valid) (hD : P.DivValid) (hp : P.p.Prime) {a b : Limbs}
    (ha : Reduced P a) (hb : Reduced P b) (h0 : b ≠ fpZero P) :
    fpMul P (fpDiv P a b) b = a ∧ fpDiv P (fpMul P a b) b = a := by
  obtain ⟨x, hx⟩ := exists_rep_val hV ha
  obtain ⟨y, hy⟩ := exists_rep_val hV hb
  have hy0 : y ≠ 0 := by
    intro h; rw [h] at hy; exact h0 (rep_inj hy (rep_zero hV))
  obtain ⟨z, h1, h2, -⟩ := C14_div hV hD hp hx hy hy0
  refine ⟨rep_inj (h2 ▸ rep_mul hV h1 hy) hx, ?_⟩
  exact rep_inj (rep_div hV hD hp (rep_mul hV hx hy) hy hy0 rfl) hx

/-- Inversion. -/
theorem C14_invert (hV : P.Valid) (hD : P.DivValid) (hp : P.p.Prime) {b : Limbs} {y : ZMod P.p}
    (hb : Rep P b y) :
    (y ≠ 0 → ∃ z, Rep P (fpInvert P b) z ∧ z * y = 1) ∧ (y = 0 → fpInvert P b = fpZero P) := by
  refine ⟨fun hy => ?_, fun hy => ?_⟩
  · obtain ⟨z, h1, h2, -⟩ := C14_div hV hD hp (rep_R_VAL hV) hb hy
    exact ⟨z, h1, h2⟩
  · subst hy
    exact C14_div_by_zero hV hD (rep_R_VAL hV) hb

/-- `7 / 3`: the hypotheses hold for the field of the code. -/
example : fpMul festaFp (fpDiv festaFp (fpFromU64 festaFp 7) (fpFromU64 festaFp 3))
    (fpFromU64 festaFp 3) = fpFromU64 festaFp 7 :=
  (C14_div_mul festa_valid C14_constant festa_roots.prime (rep_lit 7).1 (rep_lit 3).1
    (by decide +kernel)).1

/-- The Legendre symbol: 0 for zero, 1 for non-zero squares, -1 (as a `u32`) for non-squares. -/
theorem C15_legendre (hV : P.Valid) (hp : P.p.Prime) {a : Limbs} {x : ZMod P.p} (ha : Rep P a x) :
    (x = 0 → fpLegendre P a = 0) ∧ (x ≠ 0 → IsSquare x → fpLegendre P a = 1) ∧
    (¬ IsSquare x → fpLegendre P a = 0xFFFFFFFF) := by
  rw [legendre_spec hV hp ha]
  refine ⟨fun h => if_pos h, fun h h' => by rw [if_neg h, if_pos h'], fun h => ?_⟩
  have h0 : x ≠ 0 := by
    rintro rfl; exact h ⟨0, by simp⟩
  rw [if_neg h0, if_neg h]

/-- Conversely the three values are told apart by the symbol. -/
theorem C15_legendre_iff (hV : P.Valid) (hp : P.p.Prime) {a : Limbs} {x : ZMod P.p} (ha : Rep P a x) :
    (fpLegendre P a = 0 ↔ x = 0) ∧ (fpLegendre P a = 1 ↔ x ≠ 0 ∧ IsSquare x) ∧
    (fpLegendre P a = 0xFFFFFFFF ↔ ¬ IsSquare x) := by
  obtain ⟨h1, h2, h3⟩ := C15_legendre hV hp ha
  have z : IsSquare (0 : ZMod P.p) := ⟨0, by simp⟩
  by_cases hx : x = 0
  · subst hx
    rw [h1 rfl]
    simp [z]
  · by_cases hs : IsSquare x
    · rw [h2 hx hs]; simp [hx, hs]
    · rw [h3 hs]; simp [hx, hs]

/-- `-1` is not a square in the FESTA field, and `4` is. -/
example : fpLegendre festaFp (fpNeg festaFp (fpFromU64 festaFp 1)) = 0xFFFFFFFF := by
  have : Fact festaFp.p.Prime := ⟨festa_roots.prime⟩
  refine (C15_legendre festa_valid festa_roots.prime (C03_neg festa_valid (rep_lit 1))).2.2 ?_
  have h := (ZMod.exists_sq_eq_neg_one_iff (p := festaFp.p)).not.mpr
    (by have := festa_roots.mod8; omega)
  rw [show (-((1 : UInt64).toNat : ℕ) : ZMod festaFp.p) = -1 by simp]
  exact h

end Festa
