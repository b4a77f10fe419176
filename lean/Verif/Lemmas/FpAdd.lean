import Verif.Lemmas.Limbs
import Mathlib.Data.Nat.ModEq
/-! Addition, subtraction, negation, halving, doubling over limbs: exact integer statements. -/
namespace Festa

variable {P : FpParams}

theorem FpParams.p_def (P : FpParams) : P.p = lval P.MODULUS := rfl

theorem FpParams.R_def (P : FpParams) : P.R = (2 ^ 64) ^ P.N := rfl

theorem p_lt_R (hV : P.Valid) : P.p < P.R := by
  rw [P.p_def, P.R_def, ← hV.len]; exact lval_lt _

theorem p_pos (hV : P.Valid) : 0 < P.p := by have := hV.three_le; omega

theorem lval_lt_R {x : Limbs} (h : x.length = P.N) : lval x < P.R := by
  rw [P.R_def, ← h]; exact lval_lt _

/-- `addBack` with the zero mask does nothing. -/
theorem addBack_zero (hV : P.Valid) {t : Limbs} (ht : t.length = P.N) : addBack P t 0 = t := by
  have hl : t.length = (P.MODULUS.map ((0 : UInt64) &&& ·)).length := by
    rw [List.length_map, hV.len, ht]
  have h := addLoop_spec hl false
  rw [lval_map_zero_and] at h
  have hlt := lval_lt t
  have hlen := addLoop_length hl false
  unfold addBack
  apply lval_inj hlen
  cases hc : (addLoop t (P.MODULUS.map ((0 : UInt64) &&& ·)) false).2
  · rw [hc] at h; simpa using h
  · rw [hc] at h; simp at h; simp at hlt; omega

/-- `addBack` with the full mask adds the modulus modulo `R`. -/
theorem addBack_neg_one (hV : P.Valid) {t : Limbs} (ht : t.length = P.N) :
    (addBack P t (-1)).length = P.N ∧ ∃ c : Bool,
      lval (addBack P t (-1)) + P.R * c.toNat = lval t + P.p := by
  have hl : t.length = (P.MODULUS.map ((-1 : UInt64) &&& ·)).length := by
    rw [List.length_map, hV.len, ht]
  have h := addLoop_spec hl false
  rw [lval_map_neg_one_and] at h
  have hlen := addLoop_length hl false
  unfold addBack
  refine ⟨by rw [hlen, ht], (addLoop t (P.MODULUS.map ((-1 : UInt64) &&& ·)) false).2, ?_⟩
  rw [P.R_def, ← ht, P.p_def]
  rw [lval_map_neg_one_and]
  simpa using h

theorem finalSub_length (hV : P.Valid) {t : Limbs} (ht : t.length = P.N) (hi : Bool) :
    (finalSub P t hi).length = P.N := by
  have hl : t.length = P.MODULUS.length := by rw [hV.len, ht]
  unfold finalSub addBack
  simp only
  rw [addLoop_length, subLoop_length hl, ht]
  rw [List.length_map, subLoop_length hl, hV.len, ht]

/-- Subtract-and-add-back reduces a value below `2p` once. -/
theorem finalSub_spec (hV : P.Valid) {t : Limbs} (ht : t.length = P.N) (hi : Bool)
    (hlt : lval t + P.R * hi.toNat < 2 * P.p) :
    (finalSub P t hi).length = P.N ∧
    lval (finalSub P t hi) = if lval t + P.R * hi.toNat < P.p then lval t
      else lval t + P.R * hi.toNat - P.p := by
  refine ⟨finalSub_length hV ht hi, ?_⟩
  have hl : t.length = P.MODULUS.length := by rw [hV.len, ht]
  have h1 := subLoop_spec hl false
  have hlen := subLoop_length hl false
  rw [ht, ← P.R_def, ← P.p_def] at h1
  have hpR := p_lt_R hV
  have htR := lval_lt_R (P := P) ht
  have hsR := lval_lt_R (P := P) (hlen.trans ht)
  unfold finalSub
  simp only
  cases hi <;> cases hc : (subLoop t P.MODULUS false).2 <;> rw [hc] at h1 <;>
    simp only [Bool.toNat_false, Bool.toNat_true, mul_zero, mul_one, add_zero] at h1 hlt ⊢
  · -- no borrow, no extra bit
    have e : (false.toUInt64 - false.toUInt64) = (0 : UInt64) := rfl
    rw [e, addBack_zero hV (hlen.trans ht)]
    rw [if_neg (by omega)]; omega
  · have e : (false.toUInt64 - true.toUInt64) = (-1 : UInt64) := rfl
    rw [e]
    obtain ⟨h3, c, h2⟩ := addBack_neg_one hV (hlen.trans ht)
    have h4 := lval_lt_R (P := P) h3
    rw [if_pos (by omega)]
    cases c <;> simp at h2 <;> omega
  · omega
  · have e : (true.toUInt64 - true.toUInt64) = (0 : UInt64) := rfl
    rw [e, addBack_zero hV (hlen.trans ht)]
    rw [if_neg (by omega)]; omega

/-- `set_add` on integers: operands may even be `p` itself as long as the sum is below `2p`. -/
theorem fpAdd_int (hV : P.Valid) {a b : Limbs} (ha : a.length = P.N) (hb : b.length = P.N)
    (h : lval a + lval b < 2 * P.p) :
    (fpAdd P a b).length = P.N ∧
    lval (fpAdd P a b) = if lval a + lval b < P.p then lval a + lval b
      else lval a + lval b - P.p := by
  have hl : a.length = b.length := by rw [ha, hb]
  have h1 := addLoop_spec hl false
  have h2 := addLoop_length hl false
  rw [ha, ← P.R_def] at h1
  simp only [Bool.toNat_false, add_zero] at h1
  have h3 := finalSub_spec hV (h2.trans ha) (addLoop a b false).2 (by rw [h1]; exact h)
  unfold fpAdd
  simp only
  refine ⟨h3.1, ?_⟩
  rw [h3.2, h1]
  by_cases hlt : lval a + lval b < P.p
  · rw [if_pos hlt, if_pos hlt]
    have := p_lt_R hV
    cases hc : (addLoop a b false).2
    · rw [hc] at h1; simpa using h1
    · rw [hc] at h1; simp at h1; omega
  · rw [if_neg hlt, if_neg hlt]

theorem fpAdd_lval (hV : P.Valid) {a b : Limbs} (ha : Reduced P a) (hb : Reduced P b) :
    Reduced P (fpAdd P a b) ∧ lval (fpAdd P a b) = (lval a + lval b) % P.p := by
  have h := fpAdd_int hV ha.1 hb.1 (by have := ha.2; have := hb.2; omega)
  have e : lval (fpAdd P a b) = (lval a + lval b) % P.p := by
    rw [h.2]
    split_ifs with hlt
    · rw [Nat.mod_eq_of_lt hlt]
    · have := ha.2
      have := hb.2
      rw [Nat.mod_eq_sub_mod (by omega), Nat.mod_eq_of_lt (by omega)]
  exact ⟨⟨h.1, by rw [e]; exact Nat.mod_lt _ (p_pos hV)⟩, e⟩

/-- Shared tail of subtraction-like routines: `s` is `x` plus `R` if a borrow happened. -/
theorem subBack_spec (hV : P.Valid) {s : Limbs} (hs : s.length = P.N) (cc : Bool) {x y : Nat}
    (_hx : x < P.p) (hy : y < P.p) (h : lval s + y = x + P.R * cc.toNat) :
    (addBack P s (-cc.toUInt64)).length = P.N ∧
      lval (addBack P s (-cc.toUInt64)) = if y ≤ x then x - y else x + P.p - y := by
  have hsR := lval_lt_R (P := P) hs
  have hpR := p_lt_R hV
  cases cc
  · have e : (-false.toUInt64) = (0 : UInt64) := rfl
    rw [e, addBack_zero hV hs]
    simp only [Bool.toNat_false, mul_zero, add_zero] at h
    refine ⟨hs, ?_⟩
    rw [if_pos (by omega)]; omega
  · have e : (-true.toUInt64) = (-1 : UInt64) := rfl
    rw [e]
    obtain ⟨h3, c, h2⟩ := addBack_neg_one hV hs
    have h4 := lval_lt_R (P := P) h3
    simp only [Bool.toNat_true, mul_one] at h
    refine ⟨h3, ?_⟩
    rw [if_neg (by omega)]
    cases c <;> simp at h2 <;> omega

theorem fpSub_lval (hV : P.Valid) {a b : Limbs} (ha : Reduced P a) (hb : Reduced P b) :
    Reduced P (fpSub P a b) ∧ lval (fpSub P a b) = (lval a + (P.p - lval b)) % P.p := by
  have hl : a.length = b.length := by rw [ha.1, hb.1]
  have h1 := subLoop_spec hl false
  have h2 := subLoop_length hl false
  rw [ha.1, ← P.R_def] at h1
  simp only [Bool.toNat_false, add_zero] at h1
  have h3 := subBack_spec hV (h2.trans ha.1) _ ha.2 hb.2 h1
  have hA := ha.2
  have hB := hb.2
  have e : lval (fpSub P a b) = (lval a + (P.p - lval b)) % P.p := by
    unfold fpSub
    simp only
    rw [h3.2]
    split_ifs with hlt
    · rw [Nat.mod_eq_sub_mod (by omega), Nat.mod_eq_of_lt (by omega)]; omega
    · rw [Nat.mod_eq_of_lt (by omega)]; omega
  exact ⟨⟨h3.1, by rw [e]; exact Nat.mod_lt _ (p_pos hV)⟩, e⟩

theorem fpNeg_lval (hV : P.Valid) {a : Limbs} (ha : Reduced P a) :
    Reduced P (fpNeg P a) ∧ lval (fpNeg P a) = (P.p - lval a) % P.p := by
  have hl : (List.replicate a.length (0 : UInt64)).length = a.length := by simp
  have h1 := subLoop_spec hl false
  have h2 := subLoop_length hl false
  rw [hl] at h1 h2
  rw [ha.1, lval_replicate_zero, ← P.R_def] at h1
  simp only [Bool.toNat_false, add_zero] at h1
  have h3 := subBack_spec hV (h2.trans ha.1) (subLoop (List.replicate a.length 0) a false).2
    (p_pos hV) ha.2 (by rw [ha.1]; exact h1)
  have hA := ha.2
  have e : lval (fpNeg P a) = (P.p - lval a) % P.p := by
    unfold fpNeg
    simp only
    rw [h3.2]
    split_ifs with hlt
    · have : lval a = 0 := by omega
      rw [this]; simp
    · rw [Nat.mod_eq_of_lt (by omega)]; omega
  exact ⟨⟨h3.1, by rw [e]; exact Nat.mod_lt _ (p_pos hV)⟩, e⟩

end Festa
