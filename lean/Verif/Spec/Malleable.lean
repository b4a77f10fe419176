import Verif.Model.Festa
/-! What an outsider can do to a value of the trapdoor function.  These definitions have no counterpart in the code: they are
attacks on it, made of its own operations. -/
namespace Festa
variable {K : Type} [Field K] [DecidableEq K]

/-- The value with the points `R` multiplied by `k` and the points `S` by `k'`, by `Curve::mul_big` (eccore.rs:658-661, C27) on the two curves of
the value.  No secret is used. -/
def TrapdoorOutput.scale (c : TrapdoorOutput K) (k k' : Nat) : Option (TrapdoorOutput K) := do
  let R1 ← c.E1.mulBig c.R1 k
  let S1 ← c.E1.mulBig c.S1 k'
  let R2 ← c.E2.mulBig c.R2 k
  let S2 ← c.E2.mulBig c.S2 k'
  some ⟨c.E1, R1, S1, c.E2, R2, S2⟩

/-- The value with the signs of the points on the first curve changed. -/
def TrapdoorOutput.negFirst (c : TrapdoorOutput K) : TrapdoorOutput K := ⟨c.E1, c.R1.neg, c.S1.neg, c.E2, c.R2, c.S2⟩

/-- The input with the matrix `diag(b11, b22)` multiplied by `diag(k, k')` and brought to the normal form of the code, `b11` in
the lower half of the residues (main.rs:10-23, festa.rs:422-446). -/
def TrapdoorInput.scale (l : Nat) (m : TrapdoorInput) (k k' : Nat) : TrapdoorInput :=
  let b := m.b11 * k % l
  let b' := m.b22 * k' % l
  if b < l / 2 then ⟨m.s1, m.s2, b, b'⟩ else ⟨m.s1, m.s2, l - b, l - b'⟩

end Festa
