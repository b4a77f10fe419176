import Verif.Lemmas.Word
/-! C01: the word primitives return the exact mathematical results. -/
namespace Festa

/-- Add-with-carry: the result word and the carry bit are the two base-`2^64` digits of the sum. -/
theorem C01_addcarry (x y : UInt64) (c : Bool) :
    (addcarry x y c).1.toNat + 2 ^ 64 * (addcarry x y c).2.toNat = x.toNat + y.toNat + c.toNat :=
  addcarry_spec x y c

example : addcarry 0xFFFFFFFFFFFFFFFF 0xFFFFFFFFFFFFFFFF true = (0xFFFFFFFFFFFFFFFF, true) := by decide

/-- Subtract-with-borrow: the word is the difference modulo `2^64`, the borrow is set exactly when
the true difference is negative. -/
theorem C01_subborrow (x y : UInt64) (c : Bool) :
    ((subborrow x y c).1.toNat : Int) = (x.toNat - y.toNat - c.toNat : Int) % 2 ^ 64 ∧
    ((subborrow x y c).2 = true ↔ (x.toNat : Int) - y.toNat - c.toNat < 0) := by
  have h := subborrow_spec x y c
  have h1 := u64_lt (subborrow x y c).1
  have hx := u64_lt x
  have hy := u64_lt y
  have hc : c.toNat ≤ 1 := by cases c <;> simp
  generalize hb : (subborrow x y c).2 = b at *
  generalize (subborrow x y c).1.toNat = z at *
  cases b <;> simp at h ⊢ <;> omega

example : subborrow 0 0xFFFFFFFFFFFFFFFF true = (0, true) := by decide

/-- Wide product. -/
theorem C01_umull (x y : UInt64) :
    (umull x y).1.toNat + 2 ^ 64 * (umull x y).2.toNat = x.toNat * y.toNat := umull_spec x y

/-- Wide product plus one addend never overflows 128 bits. -/
theorem C01_umull_add (x y z : UInt64) :
    (umullAdd x y z).1.toNat + 2 ^ 64 * (umullAdd x y z).2.toNat = x.toNat * y.toNat + z.toNat :=
  umullAdd_spec x y z

/-- Wide product plus two addends never overflows 128 bits. -/
theorem C01_umull_add2 (x y z1 z2 : UInt64) :
    (umullAdd2 x y z1 z2).1.toNat + 2 ^ 64 * (umullAdd2 x y z1 z2).2.toNat
      = x.toNat * y.toNat + z1.toNat + z2.toNat := umullAdd2_spec x y z1 z2

example : umullAdd2 0xFFFFFFFFFFFFFFFF 0xFFFFFFFFFFFFFFFF 0xFFFFFFFFFFFFFFFF 0xFFFFFFFFFFFFFFFF
    = (0xFFFFFFFFFFFFFFFF, 0xFFFFFFFFFFFFFFFF) := by decide +kernel

/-- Sum of two wide products: exact whenever it fits in 128 bits (it need not otherwise, the `u128`
addition then wraps in release builds and panics in debug builds). -/
theorem C01_umull_x2 (x1 y1 x2 y2 : UInt64)
    (h : x1.toNat * y1.toNat + x2.toNat * y2.toNat < 2 ^ 128) :
    (umullX2 x1 y1 x2 y2).1.toNat + 2 ^ 64 * (umullX2 x1 y1 x2 y2).2.toNat
      = x1.toNat * y1.toNat + x2.toNat * y2.toNat := umullX2_spec x1 y1 x2 y2 h

example : (0xFFFFFFFFFFFFFFFF : UInt64).toNat * (0x7FFFFFFFFFFFFFFF : UInt64).toNat
    + (0x7FFFFFFFFFFFFFFF : UInt64).toNat * (0xFFFFFFFFFFFFFFFF : UInt64).toNat < 2 ^ 128 := by
  decide +kernel

/-- Sum of two wide products and a word, under the same proviso. -/
theorem C01_umull_x2_add (x1 y1 x2 y2 z3 : UInt64)
    (h : x1.toNat * y1.toNat + x2.toNat * y2.toNat + z3.toNat < 2 ^ 128) :
    (umullX2Add x1 y1 x2 y2 z3).1.toNat + 2 ^ 64 * (umullX2Add x1 y1 x2 y2 z3).2.toNat
      = x1.toNat * y1.toNat + x2.toNat * y2.toNat + z3.toNat := umullX2Add_spec x1 y1 x2 y2 z3 h

/-- The sign mask: all ones exactly for words with the top bit set, zero otherwise. -/
theorem C01_sgnw (x : UInt64) :
    (x.toInt64.toInt < 0 → sgnw x = 0xFFFFFFFFFFFFFFFF) ∧ (0 ≤ x.toInt64.toInt → sgnw x = 0) := by
  have hx := u64_lt x
  have e : x.toInt64.toInt = if x.toNat < 2 ^ 63 then (x.toNat : Int) else x.toNat - 2 ^ 64 := by
    show x.toBitVec.toInt = _
    have h64 : x.toBitVec.toNat = x.toNat := rfl
    rw [BitVec.toInt_eq_toNat_cond, h64]
    split_ifs <;> first | rfl | omega
  refine ⟨fun h => ?_, fun h => ?_⟩
  · rw [e] at h
    have : 2 ^ 63 ≤ x.toNat := by
      by_contra hc
      rw [if_pos (by omega)] at h
      omega
    rw [sgnw_neg this]; decide
  · rw [e] at h
    apply sgnw_zero
    by_contra hc
    rw [if_neg hc] at h
    omega

example : sgnw 0x8000000000000000 = 0xFFFFFFFFFFFFFFFF ∧ sgnw 0x7FFFFFFFFFFFFFFF = 0 := by decide

/-- The leading-zero count: 64 for zero, otherwise 64 minus the bit length. -/
theorem C01_lzcnt (x : UInt64) : (lzcnt x).toNat = 64 - Nat.size x.toNat := by
  obtain ⟨h1, h2, h3⟩ := lzcnt_spec x
  by_cases hx : x = 0
  · subst hx
    decide
  · obtain ⟨h4, h5⟩ := h3 hx
    have a1 := Nat.size_le.mpr h2
    have a2 := Nat.lt_size.mpr h4
    omega

example : lzcnt 0 = 64 ∧ lzcnt 1 = 63 ∧ lzcnt 0xF000000000000000 = 0 := by decide +kernel

end Festa
