import Verif.Model.Hash
import Verif.Lemmas.Fp2
import Verif.Lemmas.Fq
import Verif.Props.Fp2
/-!
Property C77: `hashcode` depends on the value only.
-/
namespace Festa
variable {P : FpParams}

/-- C77, base field: the hash of an element is the residue `n R mod p` modulo `2^64`, hence a function of the value `n`. -/
theorem C77_fp {x : Limbs} {n : ZMod P.p} (h : Rep P x n) :
    (fpHashcode x).toNat = (n * (P.R : ZMod P.p)).val % 2 ^ 64 := by
  obtain ⟨⟨hl, hlt⟩, he⟩ := h
  rw [← he, ZMod.val_natCast, Nat.mod_eq_of_lt hlt]
  cases x with
  | nil => rfl
  | cons a t =>
    show a.toNat = _
    simp only [lval]
    have := a.toNat_lt
    omega

/-- C77, extension field: bit 0 is the lowest bit of the Montgomery form of the imaginary part, the bits above are the 63 lowest
bits of that of the real part. -/
theorem C77_fp2 {a : Fp2} {z : F2 P} (h : Rep2 P a z) :
    (fp2Hashcode a).toNat = 2 * ((z.re * (P.R : ZMod P.p)).val % 2 ^ 63) + (z.im * (P.R : ZMod P.p)).val % 2 := by
  have h0 := C77_fp h.1
  have h1 := C77_fp h.2
  have e : (fp2Hashcode a).toNat = 2 * ((fpHashcode a.x0).toNat % 2 ^ 63) + (fpHashcode a.x1).toNat % 2 := by
    unfold fp2Hashcode
    have e0 : (fpHashcode a.x0 <<< 1).toNat = 2 * ((fpHashcode a.x0).toNat % 2 ^ 63) := by
      rw [UInt64.toNat_shiftLeft]
      simp [Nat.shiftLeft_eq]
      omega
    have e1 : (fpHashcode a.x1 &&& 1).toNat = (fpHashcode a.x1).toNat % 2 := by
      rw [UInt64.toNat_and]
      exact Nat.and_one_is_mod _
    rw [UInt64.toNat_or, e0, e1]
    rw [show 2 * ((fpHashcode a.x0).toNat % 2 ^ 63) = 2 ^ 1 * ((fpHashcode a.x0).toNat % 2 ^ 63) by ring]
    have := Nat.two_pow_add_eq_or_of_lt (i := 1) (b := (fpHashcode a.x1).toNat % 2) (by omega) ((fpHashcode a.x0).toNat % 2 ^ 63)
    omega
  rw [e, h0, h1]
  omega

/-- C77: equal elements have equal hashes. -/
theorem C77_well_defined {a b : Fp2} {z : F2 P} (ha : Rep2 P a z) (hb : Rep2 P b z) : fp2Hashcode a = fp2Hashcode b := by
  rw [← UInt64.toNat_inj, C77_fp2 ha, C77_fp2 hb]

/-- C77: the contract between `Eq` and `Hash` that hash tables rely on: elements that compare equal give the same words to the
hasher; the converse holds too. -/
theorem C77_hash (hV : P.Valid) {a b : Fp2} (ha : Reduced2 P a) (hb : Reduced2 P b) :
    fp2Eq a b = true ↔ fp2HashWords a = fp2HashWords b := by
  obtain ⟨z, hz⟩ := exists_rep2_val hV ha
  obtain ⟨w, hw⟩ := exists_rep2_val hV hb
  obtain ⟨-, -, h1, h2⟩ := C18_iszero_equals hV hz hw
  unfold fp2Eq fp2HashWords
  by_cases h : z = w
  · subst h
    rw [h1 rfl, rep2_inj hz hw]
    simp
  · rw [h2 h]
    constructor
    · intro h'; simp at h'
    · intro h'
      obtain ⟨e0, e1⟩ := List.append_inj h' (by rw [ha.1.1, hb.1.1])
      exact absurd (by cases a; cases b; simp only at e0 e1; subst e0 e1; exact rep2_unique hV hz hw) h

/-- **C77 (negative).**  In the code's field the elements `1` and `1 + 2 i` are different and have the same hash: of the
second coordinate only one bit is kept. -/
theorem C77_collides : ∃ a b : Fp2, Rep2 festaFp a 1 ∧ Rep2 festaFp b (1 + 2 * ⟨0, 1⟩) ∧
    (1 : F2 festaFp) ≠ 1 + 2 * ⟨0, 1⟩ ∧ fp2Hashcode a = fp2Hashcode b := by
  have hz : Rep2 festaFp (fp2Zeta festaFp) ⟨0, 1⟩ := ⟨rep_zero festa_valid, rep_R_VAL festa_valid⟩
  have h1 := rep2_add festa_valid (rep2_add festa_valid (rep2_one festa_valid) hz) hz
  have e1 : (1 + ⟨0, 1⟩ + ⟨0, 1⟩ : F2 festaFp) = 1 + 2 * ⟨0, 1⟩ := by ring
  rw [e1] at h1
  refine ⟨_, _, rep2_one festa_valid, h1, fun h => ?_, by decide +kernel⟩
  rw [← h] at h1
  have := rep2_inj (rep2_one festa_valid) h1
  revert this
  decide +kernel

/-- The code's field: `1 + i` computed in two orders has one hash, and it is not that of `1`. -/
example : fp2Hashcode (fp2Add festaFp (fp2One festaFp) (fp2Zeta festaFp)) =
      fp2Hashcode (fp2Add festaFp (fp2Zeta festaFp) (fp2One festaFp)) ∧
    fp2Hashcode (fp2Zeta festaFp) ≠ fp2Hashcode (fp2One festaFp) := by
  have hz : Rep2 festaFp (fp2Zeta festaFp) ⟨0, 1⟩ := ⟨rep_zero festa_valid, rep_R_VAL festa_valid⟩
  have h1 := rep2_add festa_valid (rep2_one festa_valid) hz
  have h2 := rep2_add festa_valid hz (rep2_one festa_valid)
  rw [add_comm] at h2
  exact ⟨C77_well_defined h1 h2, by decide +kernel⟩

end Festa
