import Verif.Lemmas.FastField
import Verif.Lemmas.ECLadder
/-!
Multiples of points of the starting curve `A = 6` by abscissas, with the arithmetic of `FastField.lean`.
-/
namespace Festa
open RootOps WeierstrassCurve.Affine

/-- `(X : Z)` is the abscissa of the point. -/
def NK {A : Fq} (X Z : N2) (Q : MPoint A) : Prop := KRep X.toFq Z.toFq Q

namespace N2

/-- Two points by abscissas. -/
structure Two where
  X0 : N2
  Z0 : N2
  X1 : N2
  Z1 : N2

def forceL {α : Type} (s : Two) (f : Two → α) : α :=
  force2 s.X0 fun a => force2 s.Z0 fun b => force2 s.X1 fun c => force2 s.Z1 fun d => f ⟨a, b, c, d⟩

theorem forceL_eq {α : Type} (s : Two) (f : Two → α) : forceL s f = f s := by simp only [forceL, force2_eq]

/-- Doubles the first point and adds the second one, with difference `(X : Z)`. -/
def dblAdd (X Z : N2) (s : Two) : Two :=
  let p := add s.X0 s.Z0
  let m := sub s.X0 s.Z0
  let pp := mul p p
  let mm := mul m m
  let c := sub pp mm
  let u := mul m (add s.X1 s.Z1)
  let v := mul p (sub s.X1 s.Z1)
  let a := add u v
  let d := sub u v
  ⟨mul pp mm, mul c (add mm (add c c)), mul Z (mul a a), mul X (mul d d)⟩

/-- One step of the ladder. -/
def step (X Z : N2) (b : Bool) (s : Two) : Two :=
  if b then
    let t := dblAdd X Z ⟨s.X1, s.Z1, s.X0, s.Z0⟩
    ⟨t.X1, t.Z1, t.X0, t.Z0⟩
  else dblAdd X Z s

/-- The steps of the last `t` digits of `n`. -/
def ladGo (X Z : N2) (n : Nat) : Nat → Two → Two
  | 0, s => s
  | t + 1, s => forceL (step X Z (Nat.testBit n t) s) fun s => ladGo X Z n t s

/-- `n` times a point, for `n < 2^t`. -/
def lad (X Z : N2) (n t : Nat) : N2 × N2 :=
  let s := ladGo X Z n t ⟨⟨1, 0⟩, ⟨0, 0⟩, X, Z⟩
  (s.X0, s.Z0)

end N2
open N2
variable {E : Crv Fq}

theorem nk_add (hE : E.Good) {X Z X0 Z0 X1 Z1 : N2} {D Q : MPoint E.A} (hD : NK X Z D) (hX : X.isZero = false)
    (hZ : Z.isZero = false) (h0 : NK X0 Z0 Q) (h1 : NK X1 Z1 (Q + D)) :
    KRep (xAdd X.toFq Z.toFq X0.toFq Z0.toFq X1.toFq Z1.toFq).1 (xAdd X.toFq Z.toFq X0.toFq Z0.toFq X1.toFq Z1.toFq).2
      (Q + (Q + D)) := by
  have hX' : X.toFq ≠ 0 := fun h => by rw [(toFq_eq_zero X).mp h] at hX; cases hX
  have hZ' : Z.toFq ≠ 0 := fun h => by rw [(toFq_eq_zero Z).mp h] at hZ; cases hZ
  rcases D with _ | ⟨x, y, hxy⟩
  · exact absurd hD.2 hZ'
  · exact krep_xadd hE h0 h1 (by rintro rfl; exact hX' (by rw [hD.2, zero_mul])) hD.1 hD.2

theorem nk_dblAdd (hE : E.Good) (hA : E.A = 6) {X Z : N2} {s : Two} {D Q : MPoint E.A} (hD : NK X Z D) (hX : X.isZero = false)
    (hZ : Z.isZero = false) (h0 : NK s.X0 s.Z0 Q) (h1 : NK s.X1 s.Z1 (Q + D)) :
    NK (dblAdd X Z s).X0 (dblAdd X Z s).Z0 (2 • Q) ∧ NK (dblAdd X Z s).X1 (dblAdd X Z s).Z1 (Q + (Q + D)) := by
  have h4 : (4 : Fq) ≠ 0 := by rw [show (4 : Fq) = 2 * 2 by norm_num]; exact mul_ne_zero hE.two hE.two
  have ha : E.A24 = 2 := mul_left_cancel₀ h4 (by rw [hE.a24, hA]; norm_num)
  constructor
  · have := krep_dbl hE h0
    unfold NK
    convert this using 1
    · simp only [dblAdd, Crv.xDbl, toFq_mul, toFq_add, toFq_sub]
    · simp only [dblAdd, Crv.xDbl, toFq_mul, toFq_add, toFq_sub, ha]
      ring
  · have := nk_add hE hD hX hZ h0 h1
    unfold NK
    convert this using 1
    · simp only [dblAdd, xAdd, toFq_mul, toFq_add, toFq_sub]
    · simp only [dblAdd, xAdd, toFq_mul, toFq_add, toFq_sub]

theorem krep_neg {K : Type*} [Field K] [DecidableEq K] {A X Z : K} {Q : MPoint A} (h : KRep X Z Q) : KRep X Z (-Q) := by
  rcases Q with _ | ⟨x, y, hq⟩
  · exact h
  · exact h

theorem nk_step (hE : E.Good) (hA : E.A = 6) {X Z : N2} {s : Two} {D : MPoint E.A} (hD : NK X Z D) (hX : X.isZero = false)
    (hZ : Z.isZero = false) (m : Nat) (b : Bool) (h0 : NK s.X0 s.Z0 (m • D)) (h1 : NK s.X1 s.Z1 ((m + 1) • D)) :
    NK (step X Z b s).X0 (step X Z b s).Z0 ((2 * m + b.toNat) • D) ∧
      NK (step X Z b s).X1 (step X Z b s).Z1 ((2 * m + b.toNat + 1) • D) := by
  cases b
  · obtain ⟨k0, k1⟩ := nk_dblAdd hE hA hD hX hZ h0 (by rw [← succ_nsmul]; exact h1)
    refine ⟨?_, ?_⟩
    · rw [show (2 * m + false.toNat) • D = 2 • (m • D) by rw [← mul_nsmul']; rfl]
      exact k0
    · rw [show (2 * m + false.toNat + 1) • D = m • D + (m • D + D) by
        rw [← succ_nsmul, ← add_nsmul]; congr 1; simp; omega]
      exact k1
  · obtain ⟨k0, k1⟩ := nk_dblAdd (s := ⟨s.X1, s.Z1, s.X0, s.Z0⟩) hE hA (D := -D) (krep_neg hD) hX hZ h1
      (by rw [succ_nsmul, add_neg_cancel_right]; exact h0)
    refine ⟨?_, ?_⟩
    · rw [show (2 * m + true.toNat) • D = (m + 1) • D + ((m + 1) • D + -D) by
        rw [succ_nsmul, add_neg_cancel_right, add_right_comm, ← add_nsmul, ← succ_nsmul]; congr 1; simp; omega]
      exact k1
    · rw [show (2 * m + true.toNat + 1) • D = 2 • ((m + 1) • D) by
        rw [← mul_nsmul']; congr 1]
      exact k0

theorem nk_ladGo (hE : E.Good) (hA : E.A = 6) {X Z : N2} {D : MPoint E.A} (hD : NK X Z D) (hX : X.isZero = false)
    (hZ : Z.isZero = false) (n t m : Nat) (s : Two) (h0 : NK s.X0 s.Z0 (m • D)) (h1 : NK s.X1 s.Z1 ((m + 1) • D)) :
    NK (ladGo X Z n t s).X0 (ladGo X Z n t s).Z0 ((2 ^ t * m + n % 2 ^ t) • D) := by
  induction t generalizing s m with
  | zero => simpa [ladGo, Nat.mod_one] using h0
  | succ t ih =>
    have e : n % 2 ^ (t + 1) = n % 2 ^ t + 2 ^ t * (n.testBit t).toNat := by
      rw [Nat.mod_pow_succ, Nat.toNat_testBit]
    obtain ⟨k0, k1⟩ := nk_step hE hA hD hX hZ m (n.testBit t) h0 h1
    unfold ladGo
    rw [forceL_eq]
    have := ih _ _ k0 k1
    rw [e, pow_succ, show 2 ^ t * 2 * m + (n % 2 ^ t + 2 ^ t * (n.testBit t).toNat) =
      2 ^ t * (2 * m + (n.testBit t).toNat) + n % 2 ^ t by ring]
    exact this

/-- The ladder is right. -/
theorem nk_lad (hE : E.Good) (hA : E.A = 6) {X Z : N2} {D : MPoint E.A} (hD : NK X Z D) (hX : X.isZero = false)
    (hZ : Z.isZero = false) (n t : Nat) (hn : n < 2 ^ t) : NK (lad X Z n t).1 (lad X Z n t).2 (n • D) := by
  have := nk_ladGo hE hA hD hX hZ n t 0 ⟨⟨1, 0⟩, ⟨0, 0⟩, X, Z⟩ (by
    rw [zero_nsmul]
    exact ⟨by rw [toFq_one]; exact one_ne_zero, toFq_zero⟩) (by rw [zero_add, one_nsmul]; exact hD)
  rwa [mul_zero, zero_add, Nat.mod_eq_of_lt hn] at this

/-- Infinity. -/
theorem nk_zero {X Z : N2} {Q : MPoint E.A} (h : NK X Z Q) : Q = 0 ↔ Z.isZero = true := by
  rw [← toFq_eq_zero]
  rcases Q with _ | ⟨x, y, hq⟩
  · exact ⟨fun _ => h.2, fun _ => rfl⟩
  · exact ⟨fun h' => (Point.some_ne_zero _ h').elim, fun h' => absurd h' h.1⟩

namespace N2

/-- Walks through `i S`, `(i+1) S`, `(i+2) S`, ... for `t` values and checks that none has the abscissa `(X : Z)`, that none is
infinity or `(0, 0)`.  `s` holds `i S` and `(i+1) S`; `(X1 : Z1)` is `S`. -/
def apart (X Z X1 Z1 : N2) : Nat → Two → Bool
  | 0, _ => true
  | t + 1, s =>
    !(sub (mul X s.Z0) (mul Z s.X0)).isZero && !s.X0.isZero && !s.Z0.isZero &&
      forceL (let u := mul (sub X1 Z1) (add s.X1 s.Z1)
        let v := mul (add X1 Z1) (sub s.X1 s.Z1)
        let a := add u v
        let d := sub u v
        ⟨s.X1, s.Z1, mul s.Z0 (mul a a), mul s.X0 (mul d d)⟩) fun s => apart X Z X1 Z1 t s

end N2

theorem nk_apart (hE : E.Good) {X Z X1 Z1 : N2} {S T : MPoint E.A} (hS : NK X1 Z1 S) (hT : NK X Z T)
    (t i : Nat) (s : Two) (h0 : NK s.X0 s.Z0 (i • S)) (h1 : NK s.X1 s.Z1 ((i + 1) • S)) (h : apart X Z X1 Z1 t s = true) :
    ∀ j, i ≤ j → j < i + t → T ≠ j • S := by
  induction t generalizing i s with
  | zero => exact fun j h1 h2 => absurd h2 (by omega)
  | succ t ih =>
    unfold apart at h
    rw [forceL_eq, Bool.and_eq_true, Bool.and_eq_true, Bool.and_eq_true] at h
    obtain ⟨⟨⟨a1, a2⟩, a3⟩, a4⟩ := h
    intro j hj hj'
    rcases Nat.lt_or_ge i j with hij | hij
    · refine ih (i + 1) _ h1 ?_ a4 j hij (by omega)
      have := nk_add hE h0 (by simpa using a2) (by simpa using a3) hS
        (by rw [← succ_nsmul']; exact h1)
      unfold NK
      rw [show (i + 1 + 1) • S = S + (S + i • S) by rw [← succ_nsmul', ← succ_nsmul']]
      convert this using 1 <;> simp only [xAdd, toFq_mul, toFq_add, toFq_sub]
    · obtain rfl : j = i := by omega
      rintro rfl
      apply (Bool.eq_false_iff.mp (by simpa using a1 : (N2.sub (N2.mul X s.Z0) (N2.mul Z s.X0)).isZero = false))
      rw [← toFq_eq_zero, toFq_sub, toFq_mul, toFq_mul]
      rcases hq : j • S with _ | ⟨x, y, hxy⟩
      · rw [hq] at hT h0
        rw [hT.2, h0.2]; ring
      · rw [hq] at hT h0
        rw [hT.2, h0.2]; ring

end Festa
