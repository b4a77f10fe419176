import Verif.Lemmas.BinGcd
import Mathlib.NumberTheory.LegendreSymbol.JacobiSymbol
/-! The Jacobi symbol along the binary GCD process, with one operand possibly negative. -/
namespace Festa.BinGcd

/-- `(A / |B|)`. -/
def jac (A B : ℤ) : ℤ := jacobiSym A B.natAbs

theorem jac_half {A B A' : ℤ} (hB : B % 2 = 1) (h : A = 2 * A') :
    jac A B = (if B % 8 = 3 ∨ B % 8 = 5 then -1 else 1) * jac A' B := by
  unfold jac
  have h1 := jacobiSym.even_odd (a := A) (b := B.natAbs) (by omega) (by omega)
  rw [← h1, show A / 2 = A' by omega]
  have : (B.natAbs % 8 = 3 ∨ B.natAbs % 8 = 5) ↔ (B % 8 = 3 ∨ B % 8 = 5) := by omega
  simp only [this]
  split_ifs <;> ring

theorem jac_sub (A B : ℤ) : jac A B = jac (A - B) B := by
  unfold jac
  apply jacobiSym.mod_left'
  rcases Int.natAbs_eq B with h | h
  · rw [← h]; simp
  · have h' : ((B.natAbs : ℕ) : ℤ) = -B := by omega
    rw [h', Int.emod_neg, Int.emod_neg]
    simp

theorem jac_neg {A B : ℤ} (hB : B % 2 = 1) :
    jac (-A) B = (if B.natAbs % 4 = 3 then -1 else 1) * jac A B := by
  unfold jac
  rw [jacobiSym.neg A (b := B.natAbs) (Nat.odd_iff.mpr (by omega)), ZMod.χ₄_nat_eq_if_mod_four]
  have h2 : ¬ B.natAbs % 2 = 0 := by omega
  rw [if_neg h2]
  by_cases h : B.natAbs % 4 = 3
  · rw [if_pos h, if_neg (by omega)]
  · rw [if_neg h, if_pos (by omega)]

theorem jac_pos_swap {A B : ℤ} (hA : A % 2 = 1) (hB : B % 2 = 1) (hA0 : 0 ≤ A) (hB0 : 0 ≤ B) :
    jac A B = (if A % 4 = 3 ∧ B % 4 = 3 then -1 else 1) * jac B A := by
  unfold jac
  obtain ⟨a, rfl⟩ := Int.eq_ofNat_of_zero_le hA0
  obtain ⟨b, rfl⟩ := Int.eq_ofNat_of_zero_le hB0
  simp only [Int.natAbs_natCast]
  rw [← jacobiSym.quadratic_reciprocity_if (a := a) (b := b) (by omega) (by omega)]
  have : (a % 4 = 3 ∧ b % 4 = 3) ↔ ((a : ℤ) % 4 = 3 ∧ (b : ℤ) % 4 = 3) := by omega
  simp only [this]
  split_ifs <;> ring

theorem jac_natAbs_right (A B : ℤ) : jac A (-B) = jac A B := by unfold jac; rw [Int.natAbs_neg]

theorem jac_swap {A B : ℤ} (hA : A % 2 = 1) (hB : B % 2 = 1) (hs : ¬ (A < 0 ∧ B < 0)) :
    jac A B = (if A % 4 = 3 ∧ B % 4 = 3 then -1 else 1) * jac B A := by
  rcases lt_or_ge A 0 with h1 | h1
  · have hB0 : 0 ≤ B := by omega
    have e1 : jac A B = jac (-(-A)) B := by rw [neg_neg]
    rw [e1, jac_neg hB, jac_pos_swap (A := -A) (by omega) hB (by omega) hB0, jac_natAbs_right,
      ← mul_assoc]
    congr 1
    rcases (show A % 4 = 1 ∨ A % 4 = 3 by omega) with h2 | h2 <;>
    rcases (show B % 4 = 1 ∨ B % 4 = 3 by omega) with h3 | h3
    · rw [if_neg (by omega), if_neg (by omega), if_neg (by omega)]; rfl
    · rw [if_pos (by omega), if_pos (by omega), if_neg (by omega)]; rfl
    · rw [if_neg (by omega), if_neg (by omega), if_neg (by omega)]; rfl
    · rw [if_pos (by omega), if_neg (by omega), if_pos (by omega)]; rfl
  · rcases lt_or_ge B 0 with h4 | h4
    · have e1 : jac B A = jac (-(-B)) A := by rw [neg_neg]
      rw [e1, jac_neg hA, ← jac_natAbs_right A B, jac_pos_swap (B := -B) hA (by omega) h1 (by omega),
        ← mul_assoc]
      congr 1
      rcases (show A % 4 = 1 ∨ A % 4 = 3 by omega) with h2 | h2 <;>
      rcases (show B % 4 = 1 ∨ B % 4 = 3 by omega) with h3 | h3
      · rw [if_neg (by omega), if_neg (by omega), if_neg (by omega)]; rfl
      · rw [if_neg (by omega), if_neg (by omega), if_neg (by omega)]; rfl
      · rw [if_pos (by omega), if_neg (by omega), if_pos (by omega)]; rfl
      · rw [if_neg (by omega), if_pos (by omega), if_pos (by omega)]; rfl
    · exact jac_pos_swap hA hB h1 h4

/-- The sign bits read off by one step, given residues modulo 8 of the values. -/
def stepSign (s : J) (A B : ℤ) : ℤ :=
  if s.x % 2 = 1 ∧ s.x < s.y then
    (if A % 4 = 3 ∧ B % 4 = 3 then -1 else 1) * (if A % 8 = 3 ∨ A % 8 = 5 then -1 else 1)
  else (if B % 8 = 3 ∨ B % 8 = 5 then -1 else 1)

theorem jac_step {a b : ℤ} {i m : ℕ} {s : J} (h : Inv a b i (m + 1) s) :
    jac s.A s.B = stepSign s s.A s.B * jac s.step.A s.step.B := by
  have hB := h.Bodd
  rcases step_cases h with ⟨hx, x', A', e1, e2, e⟩ | ⟨hx, hA1, hlt, x', A', e1, e2, e⟩ |
    ⟨hx, hA1, hlt, x', A', e1, e2, e⟩ <;> rw [e] <;> simp only [stepSign]
  · rw [if_neg (by omega), jac_half hB e2]
  · rw [if_pos ⟨hx, hlt⟩, jac_swap hA1 hB h.sign, jac_sub, jac_half hA1 e2, mul_assoc]
  · rw [if_neg (by omega), jac_sub, jac_half hB e2]

end Festa.BinGcd
