import Verif.Model.FpDiv
import Verif.Lemmas.FpPow
import Verif.Lemmas.BinGcd
/-! Word-level facts for the division and Legendre routines. -/
namespace Festa
open BinGcd

/-- The word `w` holds the signed integer `z` modulo `2^64`. -/
def WI (w : UInt64) (z : ℤ) : Prop := ∃ k : ℤ, z = w.toNat + 2 ^ 64 * k

theorem WI.sub {v w : UInt64} {y z : ℤ} (h1 : WI v y) (h2 : WI w z) : WI (v - w) (y - z) := by
  obtain ⟨k, rfl⟩ := h1
  obtain ⟨l, rfl⟩ := h2
  have hv := u64_lt v
  have hw := u64_lt w
  unfold WI
  rw [UInt64.toNat_sub]
  by_cases h : w.toNat ≤ v.toNat
  · refine ⟨k - l, ?_⟩
    rw [show 2 ^ 64 - w.toNat + v.toNat = (v.toNat - w.toNat) + 2 ^ 64 by omega, Nat.add_mod_right,
      Nat.mod_eq_of_lt (by omega)]
    omega
  · refine ⟨k - l - 1, ?_⟩
    rw [Nat.mod_eq_of_lt (by omega)]
    omega

theorem WI.add {v w : UInt64} {y z : ℤ} (h1 : WI v y) (h2 : WI w z) : WI (v + w) (y + z) := by
  obtain ⟨k, rfl⟩ := h1
  obtain ⟨l, rfl⟩ := h2
  refine ⟨k + l + (v.toNat + w.toNat) / 2 ^ 64, ?_⟩
  rw [UInt64.toNat_add]
  push_cast
  omega

theorem WI.shl {v : UInt64} {y : ℤ} (h1 : WI v y) : WI (v <<< 1) (2 * y) := by
  obtain ⟨k, rfl⟩ := h1
  refine ⟨2 * k + (2 * v.toNat) / 2 ^ 64, ?_⟩
  have : (v <<< (1 : UInt64)).toNat = 2 * v.toNat % 2 ^ 64 := by
    rw [UInt64.toNat_shiftLeft]
    simp [Nat.shiftLeft_eq, Nat.mul_comm]
  rw [this]
  push_cast
  omega

theorem WI.ofNat (w : UInt64) : WI w w.toNat := ⟨0, by ring⟩

theorem WI.unique {w : UInt64} {n : ℕ} (h : WI w n) (hn : n < 2 ^ 64) : w.toNat = n := by
  obtain ⟨k, hk⟩ := h
  have := u64_lt w
  omega

theorem aOdd_spec (x : UInt64) : aOdd x = if x.toNat % 2 = 0 then 0 else -1 := by
  unfold aOdd
  have h : (x &&& 1).toNat = x.toNat % 2 := by simp [UInt64.toNat_and, Nat.and_one_is_mod]
  split_ifs with h0
  · have : x &&& 1 = 0 := UInt64.toNat_inj.mp (by rw [h, h0]; rfl)
    rw [this]; rfl
  · have : x &&& 1 = 1 := UInt64.toNat_inj.mp (by rw [h]; simp; omega)
    rw [this]

theorem subborrow_snd (x y : UInt64) : (subborrow x y false).2 = decide (x.toNat < y.toNat) := by
  have h := subborrow_spec x y false
  have h1 := u64_lt (subborrow x y false).1
  have hx := u64_lt x
  have hy := u64_lt y
  generalize (subborrow x y false).1.toNat = z at *
  cases hb : (subborrow x y false).2 <;> rw [hb] at h <;> simp at h ⊢ <;> omega

theorem swapMask_spec (x y : UInt64) :
    swapMask x y = if x.toNat % 2 = 1 ∧ x.toNat < y.toNat then -1 else 0 := by
  unfold swapMask
  rw [aOdd_spec, subborrow_snd]
  by_cases h0 : x.toNat % 2 = 0
  · rw [if_pos h0, if_neg (by omega)]; simp
  · by_cases h1 : x.toNat < y.toNat
    · rw [if_neg h0, if_pos (by omega), decide_eq_true h1]; rfl
    · rw [if_neg h0, if_neg (by omega), decide_eq_false h1]; rfl

theorem and_ones (x : UInt64) : (-1 : UInt64) &&& x = x := by
  apply UInt64.toBitVec_inj.mp
  simp

theorem and_zeros (x : UInt64) : (0 : UInt64) &&& x = 0 := by simp

theorem xor_swap (x y : UInt64) : y ^^^ (x ^^^ y) = x := by
  rw [UInt64.xor_comm x y, xor_xor_self]

/-- The inner step without masks. -/
theorem inner_step_eq (s : Inner) : s.step =
    if s.xa.toNat % 2 = 0 then ⟨s.xa >>> 1, s.xb, s.fg0, s.fg1 <<< 1⟩
    else if s.xa.toNat < s.xb.toNat then
      ⟨(s.xb - s.xa) >>> 1, s.xa, s.fg1 - s.fg0, s.fg0 <<< 1⟩
    else ⟨(s.xa - s.xb) >>> 1, s.xb, s.fg0 - s.fg1, s.fg1 <<< 1⟩ := by
  unfold Inner.step
  simp only [aOdd_spec, swapMask_spec]
  by_cases h0 : s.xa.toNat % 2 = 0
  · rw [if_pos h0, if_pos h0, if_neg (by omega)]
    simp only [and_zeros, UInt64.xor_zero, UInt64.sub_zero]
  · by_cases h1 : s.xa.toNat < s.xb.toNat
    · rw [if_neg h0, if_neg h0, if_pos (by omega), if_pos h1]
      simp only [and_ones, xor_xor_self, xor_swap]
    · rw [if_neg h0, if_neg h0, if_neg (by omega), if_neg h1]
      simp only [and_ones, and_zeros, UInt64.xor_zero]

/-- The final-loop step without masks. -/
theorem tail_step_eq (s : Tail) : s.step =
    if s.xa.toNat % 2 = 0 then ⟨s.xa >>> 1, s.xb, s.f0, s.g0, s.f1 <<< 1, s.g1 <<< 1⟩
    else if s.xa.toNat < s.xb.toNat then
      ⟨(s.xb - s.xa) >>> 1, s.xa, s.f1 - s.f0, s.g1 - s.g0, s.f0 <<< 1, s.g0 <<< 1⟩
    else ⟨(s.xa - s.xb) >>> 1, s.xb, s.f0 - s.f1, s.g0 - s.g1, s.f1 <<< 1, s.g1 <<< 1⟩ := by
  unfold Tail.step
  simp only [aOdd_spec, swapMask_spec]
  by_cases h0 : s.xa.toNat % 2 = 0
  · rw [if_pos h0, if_pos h0, if_neg (by omega)]
    simp only [and_zeros, UInt64.xor_zero, UInt64.sub_zero]
  · by_cases h1 : s.xa.toNat < s.xb.toNat
    · rw [if_neg h0, if_neg h0, if_pos (by omega), if_pos h1]
      simp only [and_ones, xor_xor_self, xor_swap]
    · rw [if_neg h0, if_neg h0, if_neg (by omega), if_neg h1]
      simp only [and_ones, and_zeros, UInt64.xor_zero]

theorem shr1 (x : UInt64) : (x >>> 1).toNat = x.toNat / 2 := by
  rw [UInt64.toNat_shiftRight]
  simp [Nat.shiftRight_eq_div_pow]

theorem sub_toNat {x y : UInt64} (h : y.toNat ≤ x.toNat) : (x - y).toNat = x.toNat - y.toNat :=
  UInt64.toNat_sub_of_le _ _ (by exact UInt64.le_iff_toNat_le.mpr h)

/-- The words of the inner loop follow the abstract process. -/
structure RelI (s : Inner) (j : J) : Prop where
  x : s.xa.toNat = j.x
  y : s.xb.toNat = j.y
  fg0 : WI s.fg0 (j.f0 + 2 ^ 32 * j.g0)
  fg1 : WI s.fg1 (j.f1 + 2 ^ 32 * j.g1)

theorem RelI.step {s : Inner} {j : J} (h : RelI s j) : RelI s.step j.step := by
  obtain ⟨h1, h2, h3, h4⟩ := h
  rw [inner_step_eq, J.step, h1, h2]
  split_ifs with c1 c2
  · refine ⟨?_, h2, h3, ?_⟩
    · simp only [shr1, h1]
    · convert h4.shl using 1; ring
  · refine ⟨?_, h1, ?_, ?_⟩
    · simp only [shr1, sub_toNat (x := s.xb) (y := s.xa) (by omega), h1, h2]
    · convert h4.sub h3 using 1; simp only; ring
    · convert h3.shl using 1; simp only; ring
  · refine ⟨?_, h2, ?_, ?_⟩
    · simp only [shr1, sub_toNat (x := s.xa) (y := s.xb) (by omega), h1, h2]
    · convert h3.sub h4 using 1; simp only; ring
    · convert h4.shl using 1; simp only; ring

theorem RelI.iterate {s : Inner} {j : J} (h : RelI s j) (n : ℕ) :
    RelI (Inner.step^[n] s) (J.step^[n] j) := by
  induction n with
  | zero => exact h
  | succ n ih => rw [Function.iterate_succ_apply', Function.iterate_succ_apply']; exact ih.step

theorem relI_start (xa xb : UInt64) (a b : ℕ) :
    RelI ⟨xa, xb, 1, (1 : UInt64) <<< 32⟩ (start a b xa.toNat xb.toNat) := by
  refine ⟨rfl, rfl, ⟨0, ?_⟩, ⟨0, ?_⟩⟩
  · simp [start]
  · simp only [start]; decide

/-- The words of the final loop follow the abstract process. -/
structure RelT (s : Tail) (j : J) : Prop where
  x : s.xa.toNat = j.x
  y : s.xb.toNat = j.y
  f0 : WI s.f0 j.f0
  g0 : WI s.g0 j.g0
  f1 : WI s.f1 j.f1
  g1 : WI s.g1 j.g1

theorem RelT.step {s : Tail} {j : J} (h : RelT s j) : RelT s.step j.step := by
  obtain ⟨h1, h2, h3, h4, h5, h6⟩ := h
  rw [tail_step_eq, J.step, h1, h2]
  split_ifs with c1 c2
  · exact ⟨by simp only [shr1, h1], h2, h3, h4, h5.shl, h6.shl⟩
  · refine ⟨?_, h1, h5.sub h3, h6.sub h4, h3.shl, h4.shl⟩
    simp only [shr1, sub_toNat (x := s.xb) (y := s.xa) (by omega), h1, h2]
  · refine ⟨?_, h2, h3.sub h5, h4.sub h6, h5.shl, h6.shl⟩
    simp only [shr1, sub_toNat (x := s.xa) (y := s.xb) (by omega), h1, h2]

theorem RelT.iterate {s : Tail} {j : J} (h : RelT s j) (n : ℕ) :
    RelT (Tail.step^[n] s) (J.step^[n] j) := by
  induction n with
  | zero => exact h
  | succ n ih => rw [Function.iterate_succ_apply', Function.iterate_succ_apply']; exact ih.step

theorem relT_start (xa xb : UInt64) (a b : ℕ) :
    RelT ⟨xa, xb, 1, 0, 0, 1⟩ (start a b xa.toNat xb.toNat) :=
  ⟨rfl, rfl, ⟨0, by simp [start]⟩, ⟨0, by simp [start]⟩, ⟨0, by simp [start]⟩, ⟨0, by simp [start]⟩⟩

/-- Unpacking the factors. -/
theorem unpack_spec {fg : UInt64} {f g : ℤ} (h : WI fg (f + 2 ^ 32 * g))
    (hf : -2 ^ 31 < f ∧ f ≤ 2 ^ 31) (hg : -2 ^ 31 < g ∧ g ≤ 2 ^ 31) :
    WI (unpackFG fg).1 f ∧ WI (unpackFG fg).2 g := by
  have hw := h.add (WI.ofNat 0x7FFFFFFF7FFFFFFF)
  have hlit : ((0x7FFFFFFF7FFFFFFF : UInt64).toNat : ℤ) = 0x7FFFFFFF + 2 ^ 32 * 0x7FFFFFFF := by
    decide
  rw [hlit] at hw
  unfold unpackFG
  simp only
  generalize fg + 0x7FFFFFFF7FFFFFFF = w at *
  have hw' : (w.toNat : ℤ) = (f + 0x7FFFFFFF) + 2 ^ 32 * (g + 0x7FFFFFFF) := by
    obtain ⟨k, hk⟩ := hw
    have := u64_lt w
    omega
  have hl : WI 0x7FFFFFFF 0x7FFFFFFF := ⟨0, by decide⟩
  have h1 : (w &&& 0xFFFFFFFF).toNat = w.toNat % 2 ^ 32 := by
    rw [UInt64.toNat_and, show (0xFFFFFFFF : UInt64).toNat = 2 ^ 32 - 1 from rfl,
      Nat.and_two_pow_sub_one_eq_mod]
  have h2 : (w >>> 32).toNat = w.toNat / 2 ^ 32 := by
    rw [UInt64.toNat_shiftRight]
    simp [Nat.shiftRight_eq_div_pow]
  constructor
  · have := (WI.ofNat (w &&& 0xFFFFFFFF)).sub hl
    rw [h1] at this
    convert this using 1
    push_cast
    omega
  · have := (WI.ofNat (w >>> 32)).sub hl
    rw [h2] at this
    convert this using 1
    push_cast
    omega

theorem sgnw_WI {w : UInt64} {f : ℤ} (h : WI w f) (hf : -2 ^ 63 ≤ f ∧ f < 2 ^ 63) :
    sgnw w = if f < 0 then -1 else 0 := by
  obtain ⟨k, hk⟩ := h
  have := u64_lt w
  split_ifs with hneg
  · exact sgnw_neg (by omega)
  · exact sgnw_zero (by omega)

theorem condNeg_zero (w : UInt64) : condNegW w 0 = w := by simp [condNegW]

theorem condNeg_ones (w : UInt64) : condNegW w (-1) = -w := by
  unfold condNegW
  apply UInt64.toBitVec_inj.mp
  simp only [UInt64.toBitVec_sub, UInt64.toBitVec_xor, UInt64.toBitVec_neg]
  have : (1 : UInt64).toBitVec = 1#64 := rfl
  rw [this, BitVec.neg_one_eq_allOnes, BitVec.xor_allOnes, BitVec.neg_eq_not_add,
    ← BitVec.neg_one_eq_allOnes, BitVec.sub_eq_add_neg, BitVec.neg_neg]

theorem WI.neg {v : UInt64} {y : ℤ} (h1 : WI v y) : WI (-v) (-y) := by
  have := (show WI 0 0 from ⟨0, by simp⟩).sub h1
  simpa using this

theorem condNegW_WI {w : UInt64} {f : ℤ} (h : WI w f) (b : Bool) :
    WI (condNegW w (if b then -1 else 0)) (if b then -f else f) := by
  cases b
  · simpa [condNeg_zero] using h
  · simpa [condNeg_ones] using h.neg

/-- Absolute value of a signed word. -/
theorem condNegW_abs {w : UInt64} {f : ℤ} (h : WI w f) (hf : -2 ^ 63 ≤ f ∧ f < 2 ^ 63) :
    (condNegW w (sgnw w)).toNat = f.natAbs := by
  rw [sgnw_WI h hf]
  apply WI.unique _ (by omega)
  have := condNegW_WI h (decide (f < 0))
  simp only [decide_eq_true_eq] at this
  convert this using 1
  split_ifs <;> omega

end Festa
