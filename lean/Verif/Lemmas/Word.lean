import Verif.Model.Word
import Mathlib.Tactic.Ring
import Mathlib.Tactic.Linarith
import Mathlib.Data.Nat.Size
/-! Lemmas about the word helpers (model: `Verif.Model.Word`). -/
namespace Festa

theorem u64_lt (x : UInt64) : x.toNat < 2 ^ 64 := x.toNat_lt

theorem u64_mul_le (x y : UInt64) : x.toNat * y.toNat ≤ (2 ^ 64 - 1) * (2 ^ 64 - 1) :=
  Nat.mul_le_mul (Nat.le_sub_one_of_lt x.toNat_lt) (Nat.le_sub_one_of_lt y.toNat_lt)

theorem split128_fst (z : Nat) : (split128 z).1.toNat = z % 2 ^ 64 := by
  simp only [split128, UInt64.toNat_ofNat']
  exact Nat.mod_mod_of_dvd _ (by norm_num)

theorem split128_snd (z : Nat) : (split128 z).2.toNat = z % 2 ^ 128 / 2 ^ 64 := by
  simp only [split128, UInt64.toNat_ofNat', Nat.shiftRight_eq_div_pow]
  have h : z % 2 ^ 128 < 2 ^ 128 := Nat.mod_lt _ (by norm_num)
  have h' : z % 2 ^ 128 < 2 ^ 64 * 2 ^ 64 := by rw [← pow_add]; exact h
  exact Nat.mod_eq_of_lt (Nat.div_lt_of_lt_mul h')

theorem split128_spec {z : Nat} (h : z < 2 ^ 128) :
    (split128 z).1.toNat + 2 ^ 64 * (split128 z).2.toNat = z := by
  rw [split128_fst, split128_snd]
  omega

theorem addcarry_spec (x y : UInt64) (c : Bool) :
    (addcarry x y c).1.toNat + 2 ^ 64 * (addcarry x y c).2.toNat
      = x.toNat + y.toNat + c.toNat := by
  have hx := x.toNat_lt
  have hy := y.toNat_lt
  have hc : c.toNat ≤ 1 := Bool.toNat_le c
  simp only [addcarry, UInt64.toNat_ofNat', Nat.shiftRight_eq_div_pow]
  by_cases h : x.toNat + y.toNat + c.toNat < 2 ^ 64
  · have : (x.toNat + y.toNat + c.toNat) % 2 ^ 128 / 2 ^ 64 = 0 := by omega
    simp only [this, bne_self_eq_false, Bool.toNat_false]
    omega
  · have : (x.toNat + y.toNat + c.toNat) % 2 ^ 128 / 2 ^ 64 = 1 := by omega
    simp only [this]
    simp
    omega

theorem subborrow_spec (x y : UInt64) (c : Bool) :
    (subborrow x y c).1.toNat + y.toNat + c.toNat
      = x.toNat + 2 ^ 64 * (subborrow x y c).2.toNat := by
  have hx := x.toNat_lt
  have hy := y.toNat_lt
  have hc : c.toNat ≤ 1 := Bool.toNat_le c
  simp only [subborrow, UInt64.toNat_ofNat', Nat.shiftRight_eq_div_pow]
  by_cases h : y.toNat + c.toNat ≤ x.toNat
  · have : (2 ^ 128 + x.toNat - y.toNat - c.toNat) % 2 ^ 128 / 2 ^ 127 = 0 := by omega
    simp only [this, bne_self_eq_false, Bool.toNat_false]
    omega
  · have : (2 ^ 128 + x.toNat - y.toNat - c.toNat) % 2 ^ 128 / 2 ^ 127 = 1 := by omega
    simp only [this]
    simp
    omega

theorem umull_spec (x y : UInt64) :
    (umull x y).1.toNat + 2 ^ 64 * (umull x y).2.toNat = x.toNat * y.toNat := by
  have := u64_mul_le x y
  apply split128_spec
  omega

theorem umullAdd_spec (x y z : UInt64) :
    (umullAdd x y z).1.toNat + 2 ^ 64 * (umullAdd x y z).2.toNat
      = x.toNat * y.toNat + z.toNat := by
  have := u64_mul_le x y
  have := z.toNat_lt
  apply split128_spec
  omega

theorem umullAdd2_spec (x y z1 z2 : UInt64) :
    (umullAdd2 x y z1 z2).1.toNat + 2 ^ 64 * (umullAdd2 x y z1 z2).2.toNat
      = x.toNat * y.toNat + z1.toNat + z2.toNat := by
  have := u64_mul_le x y
  have := z1.toNat_lt
  have := z2.toNat_lt
  apply split128_spec
  omega

theorem umullX2_spec (x1 y1 x2 y2 : UInt64)
    (h : x1.toNat * y1.toNat + x2.toNat * y2.toNat < 2 ^ 128) :
    (umullX2 x1 y1 x2 y2).1.toNat + 2 ^ 64 * (umullX2 x1 y1 x2 y2).2.toNat
      = x1.toNat * y1.toNat + x2.toNat * y2.toNat :=
  split128_spec h

theorem umullX2Add_spec (x1 y1 x2 y2 z3 : UInt64)
    (h : x1.toNat * y1.toNat + x2.toNat * y2.toNat + z3.toNat < 2 ^ 128) :
    (umullX2Add x1 y1 x2 y2 z3).1.toNat + 2 ^ 64 * (umullX2Add x1 y1 x2 y2 z3).2.toNat
      = x1.toNat * y1.toNat + x2.toNat * y2.toNat + z3.toNat :=
  split128_spec h

theorem sgnw_toNat (x : UInt64) :
    (sgnw x).toNat = if x.toNat < 2 ^ 63 then 0 else 2 ^ 64 - 1 := by
  have hx := x.toNat_lt
  simp only [sgnw, UInt64.toNat_ofBitVec]
  rw [BitVec.toNat_sshiftRight]
  have e : x.toBitVec.msb = decide (2 ^ 63 ≤ x.toNat) := by
    rw [BitVec.msb_eq_decide]; rfl
  rw [e]
  by_cases h : x.toNat < 2 ^ 63
  · have : ¬ (2 ^ 63 ≤ x.toNat) := by omega
    simp only [this, h, decide_false, if_true, Nat.shiftRight_eq_div_pow]
    simp
    omega
  · have h' : (2 ^ 63 ≤ x.toNat) := by omega
    simp only [h', h, decide_true, if_true, if_false, Nat.shiftRight_eq_div_pow]
    simp
    omega

theorem sgnw_zero {x : UInt64} (h : x.toNat < 2 ^ 63) : sgnw x = 0 := by
  apply UInt64.toNat_inj.1
  rw [sgnw_toNat, if_pos h]; rfl

theorem sgnw_neg {x : UInt64} (h : 2 ^ 63 ≤ x.toNat) : sgnw x = -1 := by
  apply UInt64.toNat_inj.1
  rw [sgnw_toNat, if_neg (by omega)]; rfl

/-- One step of `lzcnt` on an input below `2^(2k)`: it narrows to an input below `2^k`
and keeps `count + bit length` in balance. -/
theorem lzStep_spec (k : UInt64) (n : Nat) (hk : k.toNat = n) (hn : n ≤ 32) (s x : UInt64)
    (hx : x.toNat < 2 ^ (2 * n)) :
    ((lzStep k (s, x)).2.toNat < 2 ^ n) ∧
    (((lzStep k (s, x)).1 = s ||| k ∧ x.toNat < 2 ^ n ∧ (lzStep k (s, x)).2.toNat = x.toNat) ∨
     ((lzStep k (s, x)).1 = s ∧ 2 ^ n ≤ x.toNat ∧
        (lzStep k (s, x)).2.toNat = x.toNat / 2 ^ n)) := by
  have hsh : (x >>> k).toNat = x.toNat / 2 ^ n := by
    rw [UInt64.toNat_shiftRight, hk, Nat.mod_eq_of_lt (by omega), Nat.shiftRight_eq_div_pow]
  have hlt : x.toNat / 2 ^ n < 2 ^ n := by
    apply Nat.div_lt_of_lt_mul
    rw [← pow_add, ← two_mul]; exact hx
  by_cases h : x.toNat < 2 ^ n
  · have h0 : x >>> k = 0 := by
      apply UInt64.toNat_inj.1
      rw [hsh, Nat.div_eq_of_lt h]; rfl
    have hm : sgnw (x >>> k - 1) = -1 := by
      rw [h0]; apply sgnw_neg; decide
    have e2 : (lzStep k (s, x)).2 = x := by
      simp only [lzStep, hm]; simp [h0]
    have e1 : (lzStep k (s, x)).1 = s ||| k := by
      simp only [lzStep, hm]; simp
    exact ⟨by rw [e2]; exact h, Or.inl ⟨e1, h, by rw [e2]⟩⟩
  · have h1 : 1 ≤ x.toNat / 2 ^ n := by
      rw [Nat.le_div_iff_mul_le (by positivity)]; omega
    have h32 : (2 : Nat) ^ n ≤ 2 ^ 32 := Nat.pow_le_pow_right (by norm_num) hn
    have hle : (1 : UInt64) ≤ x >>> k := by
      rw [UInt64.le_iff_toNat_le, hsh]; exact h1
    have hm : sgnw (x >>> k - 1) = 0 := by
      apply sgnw_zero
      rw [UInt64.toNat_sub_of_le _ _ hle, hsh]
      omega
    have e2 : (lzStep k (s, x)).2 = x >>> k := by
      simp only [lzStep, hm]; simp
    have e1 : (lzStep k (s, x)).1 = s := by
      simp only [lzStep, hm]; simp
    refine ⟨by rw [e2, hsh]; exact hlt, Or.inr ⟨e1, by omega, by rw [e2, hsh]⟩⟩

theorem lzcnt_spec (x : UInt64) :
    (lzcnt x).toNat ≤ 64 ∧ x.toNat < 2 ^ (64 - (lzcnt x).toNat) ∧
      (x ≠ 0 → 2 ^ (63 - (lzcnt x).toNat) ≤ x.toNat ∧ (lzcnt x).toNat ≤ 63) := by
  have hx := x.toNat_lt
  have h1 := lzStep_spec 32 32 rfl (by norm_num) 0 x hx
  have h2 := lzStep_spec 16 16 rfl (by norm_num) (lzStep 32 (0, x)).1 (lzStep 32 (0, x)).2 h1.1
  have h3 := lzStep_spec 8 8 rfl (by norm_num) (lzStep 16 (lzStep 32 (0, x))).1 (lzStep 16 (lzStep 32 (0, x))).2 h2.1
  have h4 := lzStep_spec 4 4 rfl (by norm_num) (lzStep 8 (lzStep 16 (lzStep 32 (0, x)))).1 (lzStep 8 (lzStep 16 (lzStep 32 (0, x)))).2 h3.1
  have h5 := lzStep_spec 2 2 rfl (by norm_num) (lzStep 4 (lzStep 8 (lzStep 16 (lzStep 32 (0, x))))).1 (lzStep 4 (lzStep 8 (lzStep 16 (lzStep 32 (0, x))))).2 h4.1
  have hne : x ≠ 0 ↔ x.toNat ≠ 0 := not_congr UInt64.toNat_inj.symm
  rw [hne]
  unfold lzcnt
  generalize hx1 : lzStep 32 (0, x) = r1 at *
  obtain ⟨s1, x1⟩ := r1
  generalize hx2 : lzStep 16 (s1, x1) = r2 at *
  obtain ⟨s2, x2⟩ := r2
  generalize hx3 : lzStep 8 (s2, x2) = r3 at *
  obtain ⟨s3, x3⟩ := r3
  generalize hx4 : lzStep 4 (s3, x3) = r4 at *
  obtain ⟨s4, x4⟩ := r4
  generalize hx5 : lzStep 2 (s4, x4) = r5 at *
  obtain ⟨s5, x5⟩ := r5
  clear hx1 hx2 hx3 hx4 hx5
  simp only at *
  obtain ⟨-, h1⟩ := h1
  obtain ⟨-, h2⟩ := h2
  obtain ⟨-, h3⟩ := h3
  obtain ⟨-, h4⟩ := h4
  obtain ⟨h5', h5⟩ := h5
  have e5 : (x5.toNat = 0 ∧ ((2 : UInt64) - x5 &&& (x5 - 3) >>> 2) = 2) ∨
      (x5.toNat = 1 ∧ ((2 : UInt64) - x5 &&& (x5 - 3) >>> 2) = 1) ∨
      (x5.toNat = 2 ∧ ((2 : UInt64) - x5 &&& (x5 - 3) >>> 2) = 0) ∨
      (x5.toNat = 3 ∧ ((2 : UInt64) - x5 &&& (x5 - 3) >>> 2) = 0) := by
    have : x5.toNat = 0 ∨ x5.toNat = 1 ∨ x5.toNat = 2 ∨ x5.toNat = 3 := by omega
    rcases this with h | h | h | h
    · refine Or.inl ⟨h, ?_⟩
      rw [show x5 = 0 from UInt64.toNat_inj.1 h]; rfl
    · refine Or.inr (Or.inl ⟨h, ?_⟩)
      rw [show x5 = 1 from UInt64.toNat_inj.1 h]; rfl
    · refine Or.inr (Or.inr (Or.inl ⟨h, ?_⟩))
      rw [show x5 = 2 from UInt64.toNat_inj.1 h]; rfl
    · refine Or.inr (Or.inr (Or.inr ⟨h, ?_⟩))
      rw [show x5 = 3 from UInt64.toNat_inj.1 h]; rfl
  rcases h1 with ⟨rfl, h1, h1'⟩ | ⟨rfl, h1, h1'⟩ <;>
  rcases h2 with ⟨rfl, h2, h2'⟩ | ⟨rfl, h2, h2'⟩ <;>
  rcases h3 with ⟨rfl, h3, h3'⟩ | ⟨rfl, h3, h3'⟩ <;>
  rcases h4 with ⟨rfl, h4, h4'⟩ | ⟨rfl, h4, h4'⟩ <;>
  rcases h5 with ⟨rfl, h5, h5''⟩ | ⟨rfl, h5, h5''⟩ <;>
  rcases e5 with ⟨e5, hf⟩ | ⟨e5, hf⟩ | ⟨e5, hf⟩ | ⟨e5, hf⟩ <;>
  · rw [hf]
    simp
    try omega

end Festa
