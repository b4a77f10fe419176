import Verif.Lemmas.FpDiv
import Verif.Lemmas.BinGcdJac
/-! The Legendre symbol routine follows the Jacobi symbol of the binary GCD process. -/
namespace Festa
open BinGcd
variable {P : FpParams}

/-- The sign held in the low bit of a word. -/
def sg (w : UInt64) : ℤ := if w.toNat.testBit 0 then -1 else 1

theorem sg_xor (v w : UInt64) : sg (v ^^^ w) = sg v * sg w := by
  unfold sg
  rw [UInt64.toNat_xor, Nat.testBit_xor]
  cases v.toNat.testBit 0 <;> cases w.toNat.testBit 0 <;> rfl

theorem sg_zero : sg 0 = 1 := rfl

theorem sg_and_shift {x y : UInt64} {X Y : ℤ} (hX : X % 2 = 1) (hY : Y % 2 = 1)
    (hx : (X - x.toNat) % 4 = 0) (hy : (Y - y.toNat) % 4 = 0) :
    sg ((x &&& y) >>> 1) = if X % 4 = 3 ∧ Y % 4 = 3 then -1 else 1 := by
  have e : ((x &&& y) >>> 1).toNat.testBit 0 = decide (X % 4 = 3 ∧ Y % 4 = 3) := by
    rw [UInt64.toNat_shiftRight, show (1 : UInt64).toNat % 64 = 1 from rfl, Nat.testBit_shiftRight,
      UInt64.toNat_and, Nat.testBit_and, Nat.testBit_eq_decide_div_mod_eq,
      Nat.testBit_eq_decide_div_mod_eq, ← Bool.decide_and]
    congr 1
    apply propext
    omega
  unfold sg
  rw [e]
  simp only [decide_eq_true_eq]

theorem sg_two {y : UInt64} {Y : ℤ} (hY : Y % 2 = 1) (hy : (Y - y.toNat) % 8 = 0) :
    sg ((y + 2) >>> 2) = if Y % 8 = 3 ∨ Y % 8 = 5 then -1 else 1 := by
  have e : ((y + 2) >>> 2).toNat.testBit 0 = decide (Y % 8 = 3 ∨ Y % 8 = 5) := by
    rw [UInt64.toNat_shiftRight, show (2 : UInt64).toNat % 64 = 2 from rfl, Nat.testBit_shiftRight,
      UInt64.toNat_add, Nat.testBit_eq_decide_div_mod_eq, show (2 : UInt64).toNat = 2 from rfl]
    congr 1
    apply propext
    omega
  unfold sg
  rw [e]
  simp only [decide_eq_true_eq]

/-- The update of the sign bit in one step, when `p`, `q` agree with the true values modulo 8. -/
theorem sign_core {a b : ℤ} {i m : ℕ} {j : J} (h : Inv a b i (m + 1) j) {xa xb p q ls : UInt64}
    (hxa : xa.toNat = j.x) (hxb : xb.toNat = j.y) (hp : (j.A - p.toNat) % 8 = 0)
    (hq : (j.B - q.toNat) % 8 = 0) :
    sg (ls ^^^ (swapMask xa xb &&& ((p &&& q) >>> 1)) ^^^
      (((if j.x % 2 = 1 ∧ j.x < j.y then p else q) + 2) >>> 2)) * jac j.step.A j.step.B
      = sg ls * jac j.A j.B := by
  have key : sg (ls ^^^ (swapMask xa xb &&& ((p &&& q) >>> 1)) ^^^
      (((if j.x % 2 = 1 ∧ j.x < j.y then p else q) + 2) >>> 2)) = sg ls * stepSign j j.A j.B := by
    rw [sg_xor, sg_xor, swapMask_spec, hxa, hxb]
    unfold stepSign
    by_cases hc : j.x % 2 = 1 ∧ j.x < j.y
    · have hA : j.A % 2 = 1 := by
        rcases step_cases h with ⟨hx, _⟩ | ⟨_, h1, _⟩ | ⟨_, h1, _⟩ <;> omega
      simp only [if_pos hc, and_ones]
      rw [sg_and_shift hA h.Bodd (by omega) (by omega), sg_two hA hp, mul_assoc]
    · simp only [if_neg hc, and_zeros]
      rw [sg_zero, sg_two h.Bodd hq, mul_one]
  rw [key, jac_step h, mul_assoc]

theorem inner_xb {s : Inner} {j : J} (h : RelI s j) :
    s.step.xb = if j.x % 2 = 1 ∧ j.x < j.y then s.xa else s.xb := by
  rw [inner_step_eq, h.x, h.y]
  by_cases h0 : j.x % 2 = 0
  · rw [if_pos h0, if_neg (by omega)]
  · by_cases h1 : j.x < j.y
    · rw [if_neg h0, if_pos h1, if_pos (by omega)]
    · rw [if_neg h0, if_neg h1, if_neg (by omega)]

theorem dvd8 {A : ℤ} {x m : ℕ} (hm : 3 ≤ m) (h : (2 : ℤ) ^ m ∣ A - x) : (A - x) % 8 = 0 := by
  have : (8 : ℤ) ∣ (2 : ℤ) ^ m := by
    rw [show (8 : ℤ) = 2 ^ 3 by norm_num]; exact pow_dvd_pow 2 hm
  exact Int.emod_eq_zero_of_dvd (this.trans h)

/-- First 29 steps. -/
theorem linner_iterate {a b x y : ℕ} (hb : b % 2 = 1) (hg : Nat.gcd a b = 1)
    (ha : (2 : ℤ) ^ 31 ∣ (a : ℤ) - x) (hby : (2 : ℤ) ^ 31 ∣ (b : ℤ) - y) {t : LInner}
    (ht : RelI t.s (start a b x y)) (n : ℕ) (hn : n ≤ 29) :
    RelI (LInner.step^[n] t).s (J.step^[n] (start a b x y)) ∧
    sg (LInner.step^[n] t).ls * jac (J.step^[n] (start a b x y)).A (J.step^[n] (start a b x y)).B
      = sg t.ls * jac a b := by
  induction n with
  | zero => exact ⟨ht, rfl⟩
  | succ n ih =>
    obtain ⟨i1, i2⟩ := ih (by omega)
    rw [Function.iterate_succ_apply', Function.iterate_succ_apply']
    have inv : Inv a b n (31 - n) (J.step^[n] (start a b x y)) :=
      inv_iterate (31 - n) n (by omega) hb hg (by rw [show 31 - n + n = 31 by omega]; exact ha)
        (by rw [show 31 - n + n = 31 by omega]; exact hby)
    rw [show 31 - n = (30 - n) + 1 by omega] at inv
    generalize J.step^[n] (start a b x y) = j at *
    generalize LInner.step^[n] t = w at *
    refine ⟨i1.step, ?_⟩
    rw [← i2, ← sign_core inv (ls := w.ls) i1.x i1.y (p := w.s.xa) (q := w.s.xb)
      (by rw [i1.x]; exact dvd8 (by omega) inv.congA) (by rw [i1.y]; exact dvd8 (by omega) inv.congB),
      ← inner_xb i1]
    rfl

theorem linner2_step {a b : ℤ} {i m : ℕ} {j : J} (h : Inv a b i (m + 1) j) {t : LInner2}
    (ht : RelI t.s j) (hp : (j.A - t.a0.toNat) % 8 = 0) (hq : (j.B - t.b0.toNat) % 8 = 0) :
    RelI t.step.s j.step ∧
    sg t.step.ls * jac j.step.A j.step.B = sg t.ls * jac j.A j.B ∧
    ((j.A - t.a0.toNat) % 16 = 0 → (j.B - t.b0.toNat) % 16 = 0 →
      (j.step.A - t.step.a0.toNat) % 8 = 0 ∧ (j.step.B - t.step.b0.toNat) % 8 = 0) := by
  refine ⟨ht.step, ?_, ?_⟩
  · rw [← sign_core h (ls := t.ls) ht.x ht.y hp hq]
    have : t.step.ls = t.ls ^^^ (swapMask t.s.xa t.s.xb &&& ((t.a0 &&& t.b0) >>> 1)) ^^^
        (((if j.x % 2 = 1 ∧ j.x < j.y then t.a0 else t.b0) + 2) >>> 2) := by
      simp only [LInner2.step, swapMask_spec, ht.x, ht.y]
      by_cases hc : j.x % 2 = 1 ∧ j.x < j.y
      · simp only [if_pos hc, and_ones, xor_swap]
      · simp only [if_neg hc, and_zeros, UInt64.xor_zero]
    rw [this]
  · intro h1 h2
    have hA := u64_lt t.a0
    have hB := u64_lt t.b0
    simp only [LInner2.step, swapMask_spec, aOdd_spec, ht.x, ht.y]
    rcases step_cases h with ⟨hx, x', A', e1, e2, e⟩ | ⟨hx, hA1, hlt, x', A', e1, e2, e⟩ |
      ⟨hx, hA1, hlt, x', A', e1, e2, e⟩ <;> rw [e]
    · rw [if_pos hx, if_neg (show ¬(j.x % 2 = 1 ∧ j.x < j.y) by omega)]
      simp only [and_zeros, UInt64.xor_zero, UInt64.sub_zero, shr1]
      constructor <;> omega
    · rw [if_neg (show ¬ j.x % 2 = 0 by omega), if_pos ⟨hx, hlt⟩]
      simp only [and_ones, xor_xor_self, xor_swap, shr1, UInt64.toNat_sub]
      constructor <;> omega
    · rw [if_neg (show ¬ j.x % 2 = 0 by omega), if_neg (show ¬(j.x % 2 = 1 ∧ j.x < j.y) by omega)]
      simp only [and_ones, and_zeros, UInt64.xor_zero, shr1, UInt64.toNat_sub]
      constructor <;> omega

theorem WI.mul {v w : UInt64} {y z : ℤ} (h1 : WI v y) (h2 : WI w z) : WI (v * w) (y * z) := by
  obtain ⟨k, rfl⟩ := h1
  obtain ⟨l, rfl⟩ := h2
  refine ⟨((v.toNat * w.toNat : ℕ) / 2 ^ 64 : ℕ) + v.toNat * l + w.toNat * k + 2 ^ 64 * k * l, ?_⟩
  rw [UInt64.toNat_mul]
  have h := Nat.div_add_mod (v.toNat * w.toNat) (2 ^ 64)
  have h' : (2 : ℤ) ^ 64 * ((v.toNat * w.toNat / 2 ^ 64 : ℕ) : ℤ) + ((v.toNat * w.toNat % 2 ^ 64 : ℕ) : ℤ)
    = v.toNat * w.toNat := by exact_mod_cast h
  linear_combination -h'

theorem WI_head {a : Limbs} (ha : a ≠ []) : WI (a.headD 0) (lval a) := by
  cases a with
  | nil => exact absurd rfl ha
  | cons x xs => exact ⟨lval xs, by simp⟩

theorem refresh {w : UInt64} {A : ℤ} (h : WI w (2 ^ 29 * A)) : (A - (w >>> 29).toNat) % 16 = 0 := by
  obtain ⟨k, hk⟩ := h
  have e : (w >>> 29).toNat = w.toNat / 2 ^ 29 := by
    rw [UInt64.toNat_shiftRight]; simp [Nat.shiftRight_eq_div_pow]
  rw [e]
  have := u64_lt w
  push_cast
  omega

/-- Outer invariant of `legendre`. -/
structure LegInv (P : FpParams) (v : ℤ) (k : ℕ) (s : LegState) : Prop where
  ab : AB P k s.a s.b
  sym : sg s.ls * jac (lval s.a) (lval s.b) = v

theorem sg_final {A B : ℤ} {w : UInt64} (hB : B % 2 = 1)
    (hw : ∃ q : ℕ, B.natAbs = w.toNat + 2 ^ 64 * q) :
    sg (sgnMask (decide (A < 0)) &&& (w >>> 1)) * jac A.natAbs B.natAbs = jac A B := by
  obtain ⟨q, hw⟩ := hw
  have hB' : jac A.natAbs B.natAbs = jac A.natAbs B := by unfold jac; rw [Int.natAbs_natCast]
  rw [hB']
  by_cases h : A < 0
  · have hA : ((A.natAbs : ℕ) : ℤ) = -A := by omega
    rw [hA, jac_neg hB]
    have e : sg (sgnMask (decide (A < 0)) &&& (w >>> 1)) = if B.natAbs % 4 = 3 then -1 else 1 := by
      simp only [h, decide_true, sgnMask, if_true, and_ones]
      unfold sg
      rw [UInt64.toNat_shiftRight, show (1 : UInt64).toNat % 64 = 1 from rfl, Nat.testBit_shiftRight,
        Nat.testBit_eq_decide_div_mod_eq]
      simp only [decide_eq_true_eq]
      have : (w.toNat / 2 ^ (1 + 0) % 2 = 1) ↔ B.natAbs % 4 = 3 := by omega
      simp only [this]
    rw [e, ← mul_assoc]
    split_ifs <;> ring
  · have hA : ((A.natAbs : ℕ) : ℤ) = A := by omega
    rw [hA]
    simp [h, sgnMask, sg_zero]

theorem legRound_inv (hV : P.Valid) {v : ℤ} {k : ℕ} {s : LegState} (h : LegInv P v k s) :
    LegInv P v (k + 1) (legRound s) := by
  have hN := hV.N_two
  have ha : s.a ≠ [] := by intro h0; have := h.ab.la; rw [h0] at this; simp at this; omega
  have hb : s.b ≠ [] := by intro h0; have := h.ab.lb; rw [h0] at this; simp at this; omega
  have happ := gcdApprox_spec (h.ab.la.trans h.ab.lb.symm) ha
  have ha31 : (2 : ℤ) ^ 31 ∣ (lval s.a : ℤ) - (gcdApprox s.a s.b).1.toNat := by
    rcases happ with ⟨h1, h2⟩ | ⟨d, hd⟩
    · rw [h1]; simp
    · exact approx_cong hd.x_eq
  have hb31 : (2 : ℤ) ^ 31 ∣ (lval s.b : ℤ) - (gcdApprox s.a s.b).2.toNat := by
    rcases happ with ⟨h1, h2⟩ | ⟨d, hd⟩
    · rw [h2]; simp
    · exact approx_cong hd.y_eq
  have hst := relI_start (gcdApprox s.a s.b).1 (gcdApprox s.a s.b).2 (lval s.a) (lval s.b)
  obtain ⟨r1, r2⟩ := linner_iterate h.ab.odd h.ab.gcd ha31 hb31
    (t := ⟨⟨(gcdApprox s.a s.b).1, (gcdApprox s.a s.b).2, 1, (1 : UInt64) <<< 32⟩, s.ls⟩) hst 29 le_rfl
  have inv29 : Inv (lval s.a) (lval s.b) 29 2 (J.step^[29] (start (lval s.a) (lval s.b)
      (gcdApprox s.a s.b).1.toNat (gcdApprox s.a s.b).2.toNat)) :=
    inv_iterate 2 29 (by omega) h.ab.odd h.ab.gcd ha31 hb31
  have inv30 : Inv (lval s.a) (lval s.b) 30 1 (J.step^[30] (start (lval s.a) (lval s.b)
      (gcdApprox s.a s.b).1.toNat (gcdApprox s.a s.b).2.toNat)) :=
    inv_iterate 1 30 (by omega) h.ab.odd h.ab.gcd ha31 hb31
  have e30 : ∀ j : J, J.step^[30] j = (J.step^[29] j).step := fun j =>
    Function.iterate_succ_apply' J.step 29 j
  have e31 : ∀ j : J, J.step^[31] j = (J.step^[30] j).step := fun j =>
    Function.iterate_succ_apply' J.step 30 j
  have hcore := fun (r : Inner) => round_core hV h.ab (r := r)
    (s := J.step^[31] (start (lval s.a) (lval s.b) (gcdApprox s.a s.b).1.toNat
      (gcdApprox s.a s.b).2.toNat))
  unfold legRound
  simp only
  generalize hw : LInner.step^[29] (⟨⟨(gcdApprox s.a s.b).1, (gcdApprox s.a s.b).2, 1,
    (1 : UInt64) <<< 32⟩, s.ls⟩ : LInner) = w at *
  generalize start (lval s.a) (lval s.b) (gcdApprox s.a s.b).1.toNat (gcdApprox s.a s.b).2.toNat
    = j0 at *
  rw [e30] at inv30
  generalize hj : J.step^[29] j0 = j at *
  have bd : ∀ f : ℤ, -2 ^ 29 < f ∧ f ≤ 2 ^ 29 → -2 ^ 31 < f ∧ f ≤ 2 ^ 31 := by intro f hf; omega
  obtain ⟨p1, p2⟩ := unpack_spec r1.fg0 (bd _ inv29.f0) (bd _ inv29.g0)
  obtain ⟨p3, p4⟩ := unpack_spec r1.fg1 (bd _ inv29.f1) (bd _ inv29.g1)
  have wa : (j.A - ((s.a.headD 0 * (unpackFG w.s.fg0).1 + s.b.headD 0 * (unpackFG w.s.fg0).2) >>>
      29).toNat) % 16 = 0 := by
    apply refresh
    have := ((WI_head ha).mul p1).add ((WI_head hb).mul p2)
    convert this using 1
    rw [inv29.eqA]; ring
  have wb : (j.B - ((s.a.headD 0 * (unpackFG w.s.fg1).1 + s.b.headD 0 * (unpackFG w.s.fg1).2) >>>
      29).toNat) % 16 = 0 := by
    apply refresh
    have := ((WI_head ha).mul p3).add ((WI_head hb).mul p4)
    convert this using 1
    rw [inv29.eqB]; ring
  generalize (s.a.headD 0 * (unpackFG w.s.fg0).1 + s.b.headD 0 * (unpackFG w.s.fg0).2) >>> 29
    = a0 at *
  generalize (s.a.headD 0 * (unpackFG w.s.fg1).1 + s.b.headD 0 * (unpackFG w.s.fg1).2) >>> 29
    = b0 at *
  obtain ⟨q1, q2, q3⟩ := linner2_step inv29 (t := ⟨w.s, a0, b0, w.ls⟩) r1 (by simp only; omega)
    (by simp only; omega)
  obtain ⟨q3, q4⟩ := q3 wa wb
  obtain ⟨v1, v2, -⟩ := linner2_step inv30 q1 q3 q4
  have e2 : LInner2.step^[2] (⟨w.s, a0, b0, w.ls⟩ : LInner2) = (⟨w.s, a0, b0, w.ls⟩ : LInner2).step.step :=
    rfl
  rw [e2]
  generalize (⟨w.s, a0, b0, w.ls⟩ : LInner2).step.step = z at *
  have ej : J.step^[31] j0 = j.step.step := by rw [e31, e30, hj]
  rw [ej] at hcore
  obtain ⟨inv, -, -, -, -, na, sa, nb, -, hab⟩ := hcore z.s v1 rfl
  refine ⟨hab, ?_⟩
  simp only
  rw [sg_xor, sa, na, nb, mul_assoc, sg_final inv.Bodd, v2, q2, r2, h.sym]
  rw [← nb]
  have hne : (fpLindiv31abs s.a s.b (unpackFG z.s.fg1).1 (unpackFG z.s.fg1).2).1 ≠ [] := by
    intro h0; have := hab.lb; rw [h0] at this; simp at this; omega
  generalize (fpLindiv31abs s.a s.b (unpackFG z.s.fg1).1 (unpackFG z.s.fg1).2).1 = nbl at *
  cases nbl with
  | nil => exact absurd rfl hne
  | cons x xs => exact ⟨lval xs, rfl⟩

theorem legRounds_inv (hV : P.Valid) {v : ℤ} {s : LegState} (h : LegInv P v 0 s) (k : ℕ) :
    LegInv P v k (legRound^[k] s) := by
  induction k with
  | zero => exact h
  | succ k ih => rw [Function.iterate_succ_apply']; exact legRound_inv hV ih

theorem ltail_step {t : LTail} {j : J} (hx : t.xa.toNat = j.x) (hy : t.xb.toNat = j.y) :
    t.step.xa.toNat = j.step.x ∧ t.step.xb.toNat = j.step.y ∧
    t.step.ls = t.ls ^^^ (swapMask t.xa t.xb &&& ((t.xa &&& t.xb) >>> 1)) ^^^
        (((if j.x % 2 = 1 ∧ j.x < j.y then t.xa else t.xb) + 2) >>> 2) := by
  simp only [LTail.step, swapMask_spec, aOdd_spec, hx, hy, J.step]
  by_cases h0 : j.x % 2 = 0
  · rw [if_pos h0, if_pos h0, if_neg (by omega), if_neg (by omega)]
    simp only [and_zeros, UInt64.xor_zero, UInt64.sub_zero, shr1, hx, hy, and_self]
  · by_cases h1 : j.x < j.y
    · rw [if_neg h0, if_neg h0, if_pos (by omega), if_pos h1, if_pos (by omega)]
      simp only [and_ones, xor_xor_self, xor_swap, shr1, sub_toNat (x := t.xb) (y := t.xa) (by omega),
        hx, hy, and_self]
    · rw [if_neg h0, if_neg h0, if_neg (by omega), if_neg h1, if_neg (by omega)]
      simp only [and_ones, and_zeros, UInt64.xor_zero, shr1,
        sub_toNat (x := t.xa) (y := t.xb) (by omega), hx, hy, and_self]

theorem ltail_iterate {a b : ℕ} (hb : b % 2 = 1) (hg : Nat.gcd a b = 1) {t : LTail}
    (hx : t.xa.toNat = a) (hy : t.xb.toNat = b) (n : ℕ) :
    (LTail.step^[n] t).xa.toNat = (J.step^[n] (start a b a b)).x ∧
    (LTail.step^[n] t).xb.toNat = (J.step^[n] (start a b a b)).y ∧
    sg (LTail.step^[n] t).ls * jac (J.step^[n] (start a b a b)).A (J.step^[n] (start a b a b)).B
      = sg t.ls * jac a b := by
  induction n with
  | zero => exact ⟨hx, hy, rfl⟩
  | succ n ih =>
    obtain ⟨i1, i2, i3⟩ := ih
    rw [Function.iterate_succ_apply', Function.iterate_succ_apply']
    have inv : Inv a b n (0 + 1) (J.step^[n] (start a b a b)) :=
      inv_iterate 1 n (by omega) hb hg (by simp) (by simp)
    obtain ⟨-, -, -, x4, x5⟩ := exact_iterate n hb hg
    generalize J.step^[n] (start a b a b) = j at *
    generalize LTail.step^[n] t = w at *
    obtain ⟨s1, s2, s3⟩ := ltail_step i1 i2
    refine ⟨s1, s2, ?_⟩
    rw [s3, ← i3]
    exact sign_core inv i1 i2 (by rw [i1, x4]; simp) (by rw [i2, x5]; simp)

/-- The sign found for a non-zero value. -/
theorem legendre_sign (hV : P.Valid) (hp : P.p.Prime) {a : Limbs} (ha : Reduced P a)
    (h0 : lval a ≠ 0) :
    let s := legRound^[P.num1] ⟨a, P.MODULUS, 0⟩
    sg (LTail.step^[P.num2] ⟨s.a.headD 0, s.b.headD 0, s.ls⟩).ls = jac (lval a) P.p := by
  have inv := legRounds_inv hV (v := jac (lval a) P.p) (s := ⟨a, P.MODULUS, 0⟩)
    ⟨AB_start hV hp ha h0, by simp only; rw [sg_zero, one_mul, P.p_def]⟩ P.num1
  simp only
  generalize legRound^[P.num1] ⟨a, P.MODULUS, 0⟩ = s at *
  obtain ⟨t1, t2, t3, -, -⟩ := tail_exact hV inv.ab
  rw [t1, t2] at t3
  obtain ⟨-, -, l3⟩ := ltail_iterate inv.ab.odd inv.ab.gcd
    (t := ⟨s.a.headD 0, s.b.headD 0, s.ls⟩) t1 t2 P.num2
  rw [t3, inv.sym] at l3
  rw [← l3]
  unfold jac
  simp

theorem r_word (ls : UInt64) :
    (1 : UInt32) - ((ls.toUInt32 &&& (1 : UInt32)) <<< (1 : UInt32))
      = if sg ls = 1 then 1 else 0xFFFFFFFF := by
  have e : (ls.toUInt32 &&& 1).toNat = ls.toNat % 2 := by
    rw [UInt32.toNat_and, show (1 : UInt32).toNat = 1 from rfl, Nat.and_one_is_mod]
    simp
  unfold sg
  rw [Nat.testBit_eq_decide_div_mod_eq]
  simp only [pow_zero, Nat.div_one, decide_eq_true_eq]
  rcases Nat.mod_two_eq_zero_or_one ls.toNat with h | h
  · have : ls.toUInt32 &&& 1 = 0 := UInt32.toNat_inj.mp (by rw [e, h]; rfl)
    rw [this, h]; decide
  · have : ls.toUInt32 &&& 1 = 1 := UInt32.toNat_inj.mp (by rw [e, h]; rfl)
    rw [this, h]; decide

open Classical in
/-- `legendre` of a represented value. -/
theorem legendre_spec (hV : P.Valid) (hp : P.p.Prime) {a : Limbs} {x : ZMod P.p} (ha : Rep P a x) :
    fpLegendre P a = if x = 0 then 0 else if IsSquare x then 1 else 0xFFFFFFFF := by
  have : Fact P.p.Prime := ⟨hp⟩
  have hx0 : x = 0 ↔ lval a = 0 := by
    constructor
    · intro h
      have h2 := ha.2
      rw [h, zero_mul, ZMod.natCast_eq_zero_iff] at h2
      exact Nat.eq_zero_of_dvd_of_lt h2 ha.1.2
    · intro h
      have h2 := ha.2
      rw [h, Nat.cast_zero] at h2
      exact (isUnit_R hV).mul_left_eq_zero.mp h2.symm
  unfold fpLegendre
  simp only
  rw [iszero_spec]
  by_cases h0 : x = 0
  · rw [if_pos h0, decide_eq_true (hx0.mp h0)]
    have hm : ∀ r : UInt32, r &&& ~~~(ctlOf true) = 0 := by
      intro r
      apply UInt32.toBitVec_inj.mp
      simp [ctlOf]
    rw [hm]
  · have hl0 : lval a ≠ 0 := fun h => h0 (hx0.mpr h)
    rw [if_neg h0, decide_eq_false hl0, r_word]
    have hs := legendre_sign hV hp ha.1 hl0
    simp only at hs
    rw [hs]
    have hm : ∀ r : UInt32, r &&& ~~~(ctlOf false) = r := by
      intro r
      apply UInt32.toBitVec_inj.mp
      simp [ctlOf]
    rw [hm]
    have hj : jac (lval a) P.p = legendreSym P.p (lval a) := by
      rw [jacobiSym.legendreSym.to_jacobiSym]; rfl
    have hne : ((lval a : ℤ) : ZMod P.p) ≠ 0 := by
      rw [Int.cast_natCast, ha.2]
      exact mul_ne_zero h0 (isUnit_R hV).ne_zero
    have hsq : IsSquare ((lval a : ℤ) : ZMod P.p) ↔ IsSquare x := by
      rw [Int.cast_natCast, ha.2]
      have hR : (P.R : ZMod P.p) = (2 ^ (32 * P.N)) * (2 ^ (32 * P.N)) := by
        rw [P.R_def, ← pow_mul, ← pow_add]
        push_cast
        congr 1
        ring
      have hu : (2 : ZMod P.p) ^ (32 * P.N) ≠ 0 := ((isUnit_two hV).pow _).ne_zero
      rw [hR]
      constructor
      · rintro ⟨r, hr⟩
        refine ⟨r * (2 ^ (32 * P.N))⁻¹, ?_⟩
        field_simp
        linear_combination hr
      · rintro ⟨r, hr⟩
        exact ⟨r * 2 ^ (32 * P.N), by rw [hr]; ring⟩
    rw [hj]
    by_cases hS : IsSquare x
    · rw [if_pos hS, if_pos ((legendreSym.eq_one_iff P.p hne).mpr (hsq.mpr hS))]
    · rw [if_neg hS, if_neg]
      intro h1
      exact hS (hsq.mp ((legendreSym.eq_one_iff P.p hne).mp h1))

end Festa
