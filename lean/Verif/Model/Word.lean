/-
Model of the 64-bit word helpers of `/repo/src/finitefield/utils64.rs`.

`u64` is `UInt64`.  A `u128` intermediate is a natural number taken modulo `2^128`.
The carry/borrow flags, a `u8` holding 0 or 1 in the code, are `Bool` here
(the helpers only ever produce 0 or 1).  Where the file has an x86_64 intrinsic
version and a portable version, the portable version is transcribed; the intrinsic
versions are documented by the vendor to compute the same function (not modelled).
-/
namespace Festa

/-- `(z as u64, (z >> 64) as u64)` for a `u128` value `z` (given as a natural number);
used at utils64.rs:18-19, 61-62, 68, 77, 86, 95. -/
def split128 (z : Nat) : UInt64 × UInt64 :=
  (UInt64.ofNat (z % 2 ^ 128), UInt64.ofNat ((z % 2 ^ 128) >>> 64))

/-- `addcarry_u64`, utils64.rs:15-20. -/
def addcarry (x y : UInt64) (c : Bool) : UInt64 × Bool :=
  let z := (x.toNat + y.toNat + c.toNat) % 2 ^ 128
  (UInt64.ofNat z, z >>> 64 != 0)

/-- `subborrow_u64`, utils64.rs:36-41 (`u128` wrapping subtraction, the borrow is the top bit). -/
def subborrow (x y : UInt64) (c : Bool) : UInt64 × Bool :=
  let z := (2 ^ 128 + x.toNat - y.toNat - c.toNat) % 2 ^ 128
  (UInt64.ofNat z, z >>> 127 != 0)

/-- `umull`, utils64.rs:58-63. -/
def umull (x y : UInt64) : UInt64 × UInt64 := split128 (x.toNat * y.toNat)

/-- `umull_add`, utils64.rs:65-69. -/
def umullAdd (x y z : UInt64) : UInt64 × UInt64 := split128 (x.toNat * y.toNat + z.toNat)

/-- `umull_add2`, utils64.rs:71-78. -/
def umullAdd2 (x y z1 z2 : UInt64) : UInt64 × UInt64 :=
  split128 (x.toNat * y.toNat + z1.toNat + z2.toNat)

/-- `umull_x2`, utils64.rs:80-87. -/
def umullX2 (x1 y1 x2 y2 : UInt64) : UInt64 × UInt64 :=
  split128 (x1.toNat * y1.toNat + x2.toNat * y2.toNat)

/-- `umull_x2_add`, utils64.rs:89-96. -/
def umullX2Add (x1 y1 x2 y2 z3 : UInt64) : UInt64 × UInt64 :=
  split128 (x1.toNat * y1.toNat + x2.toNat * y2.toNat + z3.toNat)

/-- `sgnw`, utils64.rs:98-104: arithmetic right shift by 63 of the signed reading. -/
def sgnw (x : UInt64) : UInt64 := UInt64.ofBitVec (x.toBitVec.sshiftRight 63)

/-- One narrowing step of the portable `lzcnt`, utils64.rs:131-133 (and 135-137, 139-141,
143-145, 147-149) with shift `k`; `s` is the count accumulated so far. -/
def lzStep (k : UInt64) (sx : UInt64 × UInt64) : UInt64 × UInt64 :=
  let s := sx.1
  let x := sx.2
  let m := sgnw ((x >>> k) - 1)
  (s ||| (m &&& k), (x >>> k) ^^^ (m &&& (x ^^^ (x >>> k))))

/-- Portable `lzcnt`, utils64.rs:130-159.  (The cast of the final count to `u32` is dropped:
the count is at most 64.) -/
def lzcnt (x : UInt64) : UInt64 :=
  let r := lzStep 2 (lzStep 4 (lzStep 8 (lzStep 16 (lzStep 32 (0, x)))))
  r.1 + (((2 : UInt64) - r.2) &&& ((r.2 - 3) >>> 2))

end Festa
