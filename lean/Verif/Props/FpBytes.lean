import Verif.Lemmas.FpPow
import Verif.Props.Fp
/-! C11, C12: byte encodings of the base field. -/
namespace Festa
variable {P : FpParams}

/-- `encode` yields the fixed-length little-endian encoding of the canonical integer. -/
theorem C11_encode (hV : P.Valid) {a : Limbs} {x : ZMod P.p} (ha : Rep P a x) :
    (fpEncode P a).length = P.encLen ∧ bval (fpEncode P a) = x.val := encode_spec hV ha

/-- The encoding length of the code is 162 bytes. -/
theorem C11_length : festaFp.encLen = 162 := by decide +kernel

/-- `decode` accepts exactly the strings of the right length with value below `p`, and returns the
element with that value; on any other input it returns zero with status 0. -/
theorem C11_decode (hV : P.Valid) (buf : List UInt8) :
    (buf.length = P.encLen ∧ bval buf < P.p →
      (fpDecode P buf).2 = 0xFFFFFFFF ∧ Rep P (fpDecode P buf).1 (bval buf : ZMod P.p)) ∧
    (¬ (buf.length = P.encLen ∧ bval buf < P.p) →
      (fpDecode P buf).2 = 0 ∧ Rep P (fpDecode P buf).1 0) := by
  refine ⟨fun h => ?_, fun h => ?_⟩
  · obtain ⟨r, h1, h2⟩ := (decode_spec_aux hV h.1).1 h.2
    rw [h1]; exact ⟨rfl, h2⟩
  · by_cases hl : buf.length = P.encLen
    · obtain ⟨r, h1, h2⟩ := (decode_spec_aux hV hl).2 (by
        by_contra hc; exact h ⟨hl, by omega⟩)
      rw [h1]; exact ⟨rfl, h2⟩
    · have : fpDecode P buf = (fpZero P, 0) := by simp [fpDecode, hl]
      rw [this]; exact ⟨rfl, rep_zero hV⟩

/-- Decoding an encoding gives the element back. -/
theorem C11_decode_encode (hV : P.Valid) {a : Limbs} (ha : Reduced P a) :
    fpDecode P (fpEncode P a) = (a, 0xFFFFFFFF) := by
  obtain ⟨x, hx⟩ := exists_rep_val hV ha
  obtain ⟨h1, h2⟩ := encode_spec hV hx
  have : NeZero P.p := ⟨(p_pos hV).ne'⟩
  have hlt : bval (fpEncode P a) < P.p := by rw [h2]; exact ZMod.val_lt x
  obtain ⟨k1, k2⟩ := (C11_decode hV (fpEncode P a)).1 ⟨h1, hlt⟩
  refine Prod.ext ?_ k1
  refine rep_inj k2 ?_
  rw [h2, ZMod.natCast_val, ZMod.cast_id]
  exact hx

/-- Encoding a successfully decoded string gives the string back. -/
theorem C11_encode_decode (hV : P.Valid) {buf : List UInt8}
    (h : (fpDecode P buf).2 = 0xFFFFFFFF) : fpEncode P (fpDecode P buf).1 = buf := by
  by_cases hc : buf.length = P.encLen ∧ bval buf < P.p
  · obtain ⟨_, k2⟩ := (C11_decode hV buf).1 hc
    obtain ⟨h1, h2⟩ := encode_spec hV k2
    refine bval_inj (h1.trans hc.1.symm) ?_
    rw [h2, ZMod.val_natCast, Nat.mod_eq_of_lt hc.2]
  · have := ((C11_decode hV buf).2 hc).1
    rw [this] at h
    exact absurd h (by decide)

/-- Distinct elements have distinct encodings. -/
theorem C11_encode_injective (hV : P.Valid) {a b : Limbs} (ha : Reduced P a) (hb : Reduced P b)
    (h : fpEncode P a = fpEncode P b) : a = b := by
  have h1 := C11_decode_encode hV ha
  have h2 := C11_decode_encode hV hb
  rw [h, h2] at h1
  exact (Prod.mk.inj h1).1.symm

example : (fpDecode festaFp (3 :: List.replicate 161 0)).2 = 0xFFFFFFFF ∧
    (fpDecode festaFp (List.replicate 162 255)).2 = 0 ∧ (fpDecode festaFp []).2 = 0 := by
  decide +kernel

/-- `decode_reduce` of a byte string of any length is its little-endian value modulo `p`. -/
theorem C12_decode_reduce (hV : P.Valid) (buf : List UInt8) :
    Rep P (fpDecodeReduce P buf) (bval buf : ZMod P.p) := decodeReduce_spec hV buf

/-- `rand` is the reduction of the bytes delivered by the generator. -/
theorem C12_rand (hV : P.Valid) (bytes : List UInt8) :
    Rep P (fpRand P bytes) (bval bytes : ZMod P.p) := decodeReduce_spec hV bytes

example : fpDecodeReduce festaFp [] = fpZero festaFp ∧
    fpDecodeReduce festaFp (5 :: List.replicate 400 0) = fpFromU64 festaFp 5 := by decide +kernel

end Festa
