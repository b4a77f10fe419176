import Verif.Model.Fp2
/-! Model of the implementations of `PartialEq` and `Hash`. -/
namespace Festa

/-- `PartialEq::eq`, fp2_gen.rs:1086-1088. -/
def fp2Eq (a b : Fp2) : Bool := fp2Equals a b != 0

/-- `Hash::hash` of `Fp2` and `Fp`, fp2_gen.rs:1094-1100 and fp_gen.rs:1841-1843: the words given to the hasher. (The length
that the standard library writes before each array is left out; it is a constant.) -/
def fp2HashWords (a : Fp2) : List UInt64 := a.x0 ++ a.x1

end Festa
