import Verif.Model.Festa
import Verif.Lemmas.FqRoot
/-! The encoding of `Fp2` as used by festa.rs. -/
namespace Festa

/-- What the encoding of field elements has to satisfy: encodings have the same length, decoding
inverts encoding, and only encodings are accepted. -/
class LawfulCodec (K : Type*) [Codec K] : Prop where
  len : ∀ a : K, (Codec.encode a).length = Codec.encLen K
  dec : ∀ a : K, Codec.decode (Codec.encode a) = (a, (0xFFFFFFFF : UInt32))
  enc : ∀ b, (Codec.decode b : K × UInt32).2 = 0xFFFFFFFF →
    Codec.encode (Codec.decode b : K × UInt32).1 = b

namespace Fq

theorem decode_reduced (b : List UInt8) : Reduced2 festaFp (fp2Decode festaFp b).1 := by
  by_cases h : b.length = 2 * festaFp.encLen ∧ bval (b.take festaFp.encLen) < festaFp.p ∧
      bval (b.drop festaFp.encLen) < festaFp.p
  · exact ((C23_decode festa_valid b).1 h).2.reduced
  · rw [((C23_decode festa_valid b).2 h).2]
    exact (rep2_zero festa_valid).reduced

/-- `Fp2::encode`, fp2_gen.rs:626-631, and `Fp2::decode`, fp2_gen.rs:633-643, on reduced pairs. -/
instance : Codec Fq where
  encLen := 2 * festaFp.encLen
  encode a := fp2Encode festaFp a.1
  decode b := (⟨(fp2Decode festaFp b).1, decode_reduced b⟩, (fp2Decode festaFp b).2)

instance : LawfulCodec Fq where
  len a := (C23_encode festa_valid a.rep).1
  dec a := by
    have h := C23_decode_encode festa_valid a.2
    refine Prod.ext (Subtype.ext ?_) ?_
    · exact congrArg Prod.fst h
    · show (fp2Decode festaFp (fp2Encode festaFp a.1)).2 = _
      rw [h]
  enc b h := C23_encode_decode festa_valid h

end Fq
end Festa
