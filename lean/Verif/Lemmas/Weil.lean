import Verif.Lemmas.MillerEval
import Verif.Lemmas.Kernel
import Mathlib.Algebra.Group.Subgroup.ZPowers.Basic
import Mathlib.Tactic.FieldSimp
import Mathlib.Tactic.LinearCombination
/-!
The Weil pairing by Miller's algorithm: `mil P X n` is the value at `X` of Miller's function for `n`
and `P` along the double-and-add chain of `n`, and `we n P Q` the pairing.  It is bilinear,
antisymmetric and alternating wherever it is defined.
-/
namespace Festa
open WeierstrassCurve.Affine
variable {K : Type*} [Field K] [DecidableEq K] {A : K}

/-- Miller's function of `n` and `P` at `X`, along the double-and-add chain of `n`. -/
noncomputable def mil (P X : MPoint A) : Nat → K
  | 0 => 1
  | 1 => 1
  | n + 2 =>
    let k := (n + 2) / 2
    let f := mil P X k * mil P X k * gv (k • P) (k • P) X
    if (n + 2) % 2 = 1 then f * gv ((2 * k) • P) P X else f

theorem mil_one (P X : MPoint A) : mil P X 1 = 1 := by rw [mil]

theorem mil_even (P X : MPoint A) {k : Nat} (hk : 1 ≤ k) :
    mil P X (2 * k) = mil P X k * mil P X k * gv (k • P) (k • P) X := by
  obtain ⟨j, rfl⟩ : ∃ j, k = j + 1 := ⟨k - 1, by omega⟩
  have e : 2 * (j + 1) = 2 * j + 2 := by ring
  rw [e, mil]
  have h1 : (2 * j + 2) / 2 = j + 1 := by omega
  have h2 : ¬(2 * j + 2) % 2 = 1 := by omega
  simp only [h1, if_neg h2]

theorem mil_odd (P X : MPoint A) {k : Nat} (hk : 1 ≤ k) :
    mil P X (2 * k + 1) = mil P X (2 * k) * gv ((2 * k) • P) P X := by
  rw [mil_even P X hk]
  obtain ⟨j, rfl⟩ : ∃ j, k = j + 1 := ⟨k - 1, by omega⟩
  have e : 2 * (j + 1) + 1 = (2 * j + 1) + 2 := by ring
  rw [e, mil]
  have h1 : (2 * j + 1 + 2) / 2 = j + 1 := by omega
  have h2 : (2 * j + 1 + 2) % 2 = 1 := by omega
  simp only [h1, if_pos h2]

theorem chain_induction {p : Nat → Prop} (h1 : p 1) (he : ∀ k, 1 ≤ k → p k → p (2 * k))
    (ho : ∀ k, 1 ≤ k → p (2 * k) → p (2 * k + 1)) (n : Nat) (hn : 1 ≤ n) : p n := by
  induction n using Nat.strong_induction_on with
  | _ n ih =>
    by_cases h : n = 1
    · rw [h]; exact h1
    · rcases Nat.even_or_odd' n with ⟨k, e | e⟩
      · rw [e]; exact he k (by omega) (ih k (by omega) (by omega))
      · rw [e]; exact ho k (by omega) (he k (by omega) (ih k (by omega) (by omega)))

section
variable {P Q R X : MPoint A}

theorem den_mult {Q X : MPoint A} (h : X ∉ AddSubgroup.zmultiples Q) (k : Nat) :
    evalPt X (denC (k • Q)) ≠ 0 :=
  denC_sub (AddSubgroup.nsmul_mem _ (AddSubgroup.mem_zmultiples Q) k) h

/-- Miller's function of a sum of points. -/
theorem mil_base_add (hQ : X ∉ AddSubgroup.zmultiples Q) (hR : X ∉ AddSubgroup.zmultiples R)
    (hS : X ∉ AddSubgroup.zmultiples (Q + R)) (n : Nat) (hn : 1 ≤ n) :
    mil (Q + R) X n * gv Q R X ^ n = mil Q X n * mil R X n * gv (n • Q) (n • R) X := by
  refine chain_induction (p := fun n => mil (Q + R) X n * gv Q R X ^ n =
    mil Q X n * mil R X n * gv (n • Q) (n • R) X) ?_ ?_ ?_ n hn
  · simp [mil_one]
  · intro k hk ih
    rw [mil_even _ _ hk, mil_even _ _ hk, mil_even _ _ hk]
    have e1 : k • Q + k • R = k • (Q + R) := (nsmul_add Q R k).symm
    have e2 : k • (Q + R) + k • (Q + R) = (2 * k) • (Q + R) := by rw [← add_nsmul, two_mul]
    have e3 : k • Q + k • Q = (2 * k) • Q := by rw [← add_nsmul, two_mul]
    have e4 : k • R + k • R = (2 * k) • R := by rw [← add_nsmul, two_mul]
    have h4 := gv_four (a := k • Q) (b := k • R) (c := k • Q) (d := k • R) (X := X)
      (by rw [e1]; exact den_mult hS k) (by rw [e1]; exact den_mult hS k)
      (by rw [e3]; exact den_mult hQ _) (by rw [e4]; exact den_mult hR _)
      (by rw [e1, e2]; exact den_mult hS _)
    rw [e1, e3, e4] at h4
    rw [pow_mul', sq]
    linear_combination (gv (k • (Q + R)) (k • (Q + R)) X) *
      (mil (Q + R) X k * gv Q R X ^ k + mil Q X k * mil R X k * gv (k • Q) (k • R) X) * ih +
      (mil Q X k * mil R X k) ^ 2 * h4
  · intro k hk ih
    rw [mil_odd _ _ hk, mil_odd _ _ hk, mil_odd _ _ hk]
    have e1 : (2 * k) • Q + (2 * k) • R = (2 * k) • (Q + R) := (nsmul_add Q R (2 * k)).symm
    have e2 : (2 * k) • (Q + R) + (Q + R) = (2 * k + 1) • (Q + R) := (succ_nsmul _ _).symm
    have e3 : (2 * k) • Q + Q = (2 * k + 1) • Q := (succ_nsmul _ _).symm
    have e4 : (2 * k) • R + R = (2 * k + 1) • R := (succ_nsmul _ _).symm
    have hS1 := den_mult hS 1
    rw [one_nsmul] at hS1
    have h4 := gv_four (a := (2 * k) • Q) (b := (2 * k) • R) (c := Q) (d := R) (X := X)
      (by rw [e1]; exact den_mult hS _) hS1
      (by rw [e3]; exact den_mult hQ _) (by rw [e4]; exact den_mult hR _)
      (by rw [e1, e2]; exact den_mult hS _)
    rw [e1, e3, e4] at h4
    rw [pow_succ]
    linear_combination (gv ((2 * k) • (Q + R)) (Q + R) X * gv Q R X) * ih +
      (mil Q X (2 * k) * mil R X (2 * k)) * h4

/-- Miller's function at a sum of points. -/
theorem mil_arg_add (hQ : Q ∉ AddSubgroup.zmultiples P) (hR : R ∉ AddSubgroup.zmultiples P)
    (hS : Q + R ∉ AddSubgroup.zmultiples P) (n : Nat) (hn : 1 ≤ n) :
    mil P (Q + R) n * hv Q R P ^ n = -((-1) ^ n * (mil P Q n * mil P R n * hv Q R (n • P))) := by
  refine chain_induction (p := fun n => mil P (Q + R) n * hv Q R P ^ n =
    -((-1) ^ n * (mil P Q n * mil P R n * hv Q R (n • P)))) ?_ ?_ ?_ n hn
  · simp [mil_one]
  · intro k hk ih
    rw [mil_even _ _ hk, mil_even _ _ hk, mil_even _ _ hk]
    have hm : k • P ∈ AddSubgroup.zmultiples P :=
      AddSubgroup.nsmul_mem _ (AddSubgroup.mem_zmultiples P) k
    have h := gv_recip hm hm hQ hR hS
    rw [← add_nsmul, ← two_mul] at h
    rw [pow_mul' (hv Q R P), pow_mul' (-1 : K), sq, sq]
    have h1 : ((-1 : K) ^ k) * (-1) ^ k = 1 := by rw [← mul_pow]; simp
    rw [h1, one_mul]
    linear_combination gv (k • P) (k • P) (Q + R) *
      (mil P (Q + R) k * hv Q R P ^ k - (-1) ^ k * (mil P Q k * mil P R k * hv Q R (k • P))) * ih +
      (mil P Q k * mil P R k) ^ 2 * h +
      (mil P Q k * mil P R k * hv Q R (k • P)) ^ 2 * gv (k • P) (k • P) (Q + R) * h1
  · intro k hk ih
    rw [mil_odd _ _ hk, mil_odd _ _ hk, mil_odd _ _ hk]
    have hm : (2 * k) • P ∈ AddSubgroup.zmultiples P :=
      AddSubgroup.nsmul_mem _ (AddSubgroup.mem_zmultiples P) _
    have h := gv_recip hm (AddSubgroup.mem_zmultiples P) hQ hR hS
    rw [← succ_nsmul] at h
    rw [pow_succ, pow_succ]
    linear_combination gv ((2 * k) • P) P (Q + R) * hv Q R P * ih -
      (-1) ^ (2 * k) * (mil P Q (2 * k) * mil P R (2 * k)) * h

/-- Miller's function at opposite points. -/
theorem mil_arg_neg (hQ : Q ∉ AddSubgroup.zmultiples P) (n : Nat) (hn : 1 ≤ n) :
    mil P Q n * mil P (-Q) n * kv Q (n • P) = kv Q P ^ n := by
  refine chain_induction (p := fun n => mil P Q n * mil P (-Q) n * kv Q (n • P) = kv Q P ^ n)
    ?_ ?_ ?_ n hn
  · simp [mil_one]
  · intro k hk ih
    rw [mil_even _ _ hk, mil_even _ _ hk]
    have hm : k • P ∈ AddSubgroup.zmultiples P :=
      AddSubgroup.nsmul_mem _ (AddSubgroup.mem_zmultiples P) k
    have h := gv_recip_neg hm hm hQ
    rw [← add_nsmul, ← two_mul] at h
    rw [pow_mul', sq, ← ih]
    linear_combination (mil P Q k * mil P (-Q) k) ^ 2 * h
  · intro k hk ih
    rw [mil_odd _ _ hk, mil_odd _ _ hk]
    have hm : (2 * k) • P ∈ AddSubgroup.zmultiples P :=
      AddSubgroup.nsmul_mem _ (AddSubgroup.mem_zmultiples P) _
    have h := gv_recip_neg hm (AddSubgroup.mem_zmultiples P) hQ
    rw [← succ_nsmul] at h
    rw [pow_succ, ← ih]
    linear_combination (mil P Q (2 * k) * mil P (-Q) (2 * k)) * h

theorem mil_ne (hX : X ∉ AddSubgroup.zmultiples P) (n : Nat) (hn : 1 ≤ n) : mil P X n ≠ 0 := by
  refine chain_induction (p := fun n => mil P X n ≠ 0) ?_ ?_ ?_ n hn
  · rw [mil_one]; exact one_ne_zero
  · intro k hk ih
    rw [mil_even _ _ hk]
    have hm : k • P ∈ AddSubgroup.zmultiples P :=
      AddSubgroup.nsmul_mem _ (AddSubgroup.mem_zmultiples P) k
    exact mul_ne_zero (mul_ne_zero ih ih) (gv_ne hm hm hX)
  · intro k hk ih
    rw [mil_odd _ _ hk]
    have hm : (2 * k) • P ∈ AddSubgroup.zmultiples P :=
      AddSubgroup.nsmul_mem _ (AddSubgroup.mem_zmultiples P) _
    exact mul_ne_zero ih (gv_ne hm (AddSubgroup.mem_zmultiples P) hX)

end

/-! ### The pairing -/

/-- The Weil pairing by Miller's functions. -/
noncomputable def we (n : Nat) (P Q : MPoint A) : K := (-1) ^ n * mil P Q n / mil Q P n

theorem ND.symm {P Q : MPoint A} (h : ND P Q) : ND Q P := ⟨h.2, h.1⟩

theorem ND.ne_left {P Q : MPoint A} (h : ND P Q) : P ≠ 0 :=
  fun e => h.1 (e ▸ AddSubgroup.zero_mem _)

theorem ND.ne_right {P Q : MPoint A} (h : ND P Q) : Q ≠ 0 := h.symm.ne_left

section
variable {P Q R : MPoint A} {n : Nat}

theorem we_ne (hn : 1 ≤ n) (h : ND P Q) : we n P Q ≠ 0 := by
  unfold we
  exact div_ne_zero (mul_ne_zero (pow_ne_zero _ (by simp)) (mil_ne h.2 n hn)) (mil_ne h.1 n hn)

theorem we_symm (hn : 1 ≤ n) (h : ND P Q) : we n P Q * we n Q P = 1 := by
  unfold we
  have h1 := mil_ne h.1 n hn
  have h2 := mil_ne h.2 n hn
  have h3 : ((-1 : K) ^ n) * (-1) ^ n = 1 := by rw [← mul_pow]; simp
  field_simp
  linear_combination h3

theorem hv_self {P Q R : MPoint A} (hP : P ≠ 0) : hv Q R P = gv Q R P := if_neg hP

theorem we_add (hn : 1 ≤ n) (h1 : ND P Q) (h2 : ND P R) (h3 : ND P (Q + R)) (hP : n • P = 0)
    (hQ : n • Q = 0) (hR : n • R = 0) : we n P (Q + R) = we n P Q * we n P R := by
  have b := mil_base_add h1.1 h2.1 h3.1 n hn
  have a := mil_arg_add h1.2 h2.2 h3.2 n hn
  rw [hQ, hR, gv_zero_left (by simpa using den_mult h1.1 0), mul_one] at b
  have e0 : hv Q R 0 = -1 := if_pos rfl
  rw [hP, hv_self h1.ne_left, e0] at a
  have g0 : gv Q R P ^ n ≠ 0 := by
    have e : gv Q R P ^ n * mil (Q + R) P n ≠ 0 := by
      rw [mul_comm, b]; exact mul_ne_zero (mil_ne h1.1 n hn) (mil_ne h2.1 n hn)
    exact left_ne_zero_of_mul e
  have k1 := mil_ne h1.1 n hn
  have k2 := mil_ne h2.1 n hn
  have k3 := mil_ne h3.1 n hn
  unfold we
  have h4 : ((-1 : K) ^ n) * (-1) ^ n = 1 := by rw [← mul_pow]; simp
  rw [div_mul_div_comm, div_eq_div_iff k3 (mul_ne_zero k1 k2), ← b]
  apply mul_right_cancel₀ (mul_ne_zero g0 g0)
  linear_combination (-1) ^ n * mil (Q + R) P n * gv Q R P ^ n * gv Q R P ^ n * a

theorem mil_zero (X : MPoint A) (hX : X ≠ 0) (n : Nat) (hn : 1 ≤ n) : mil 0 X n = 1 := by
  have h0 : gv 0 0 X = 1 := gv_zero_left (by
    have := den_mult (Q := 0) (X := X) (by simpa using hX) 0
    simpa using this)
  refine chain_induction (p := fun n => mil 0 X n = 1) (mil_one _ _) ?_ ?_ n hn
  · intro k hk ih; rw [mil_even _ _ hk, ih, nsmul_zero, h0]; ring
  · intro k hk ih; rw [mil_odd _ _ hk, ih, nsmul_zero, h0]; ring

theorem we_neg (hn : 1 ≤ n) (h : ND P Q) (hP : n • P = 0) (hQ : n • Q = 0) :
    we n P Q * we n P (-Q) = 1 := by
  have hN : P ∉ AddSubgroup.zmultiples (-Q) := by rw [AddSubgroup.zmultiples_neg]; exact h.1
  have b := mil_base_add h.1 hN (by rw [add_neg_cancel]; simpa using h.ne_left) n hn
  have a := mil_arg_neg h.2 n hn
  have k1 := mil_ne h.1 n hn
  have k2 := mil_ne hN n hn
  have e0 : kv Q 0 = 1 := if_pos rfl
  have e1 : kv Q P = gv Q (-Q) P := by
    unfold gv kv
    rw [if_neg h.ne_left, numC_neg Q h.ne_right, add_neg_cancel]
    have : evalPt P (denC (0 : MPoint A)) = 1 := by
      rcases P with _ | ⟨x, y, k⟩
      · exact absurd rfl h.ne_left
      · exact evalPt_one k
    rw [this, div_one]
  rw [neg_nsmul, hQ, neg_zero, gv_zero_left (by simpa using den_mult h.1 0), mul_one,
    add_neg_cancel, mil_zero P h.ne_left n hn, one_mul] at b
  rw [hP, e0, mul_one, e1, b] at a
  unfold we
  have h3 : ((-1 : K) ^ n) * (-1) ^ n = 1 := by rw [← mul_pow]; simp
  rw [div_mul_div_comm, div_eq_one_iff_eq (mul_ne_zero k1 k2)]
  linear_combination (-1) ^ n * (-1) ^ n * a + mil Q P n * mil (-Q) P n * h3

/-- Compatibility of the pairings of orders `2 n` and `n`. -/
theorem we_double (hn : 1 ≤ n) (h1 : ND P R) (h2 : ND (P + P) R) (hR : n • R = 0) :
    we (2 * n) P R = we n (P + P) R := by
  have b := mil_base_add h1.2 h1.2 h2.2 n hn
  have a := mil_arg_add h1.1 h1.1 h2.1 n hn
  have e0 : hv P P 0 = -1 := if_pos rfl
  rw [hR, e0, hv_self h1.ne_right] at a
  unfold we
  have k1 := mil_ne h1.1 n hn
  have k2 := mil_ne h2.1 n hn
  have h3 : ((-1 : K) ^ n) * (-1) ^ n = 1 := by rw [← mul_pow]; simp
  have g0 : gv P P R ≠ 0 := by
    have := mil_ne h1.1 n hn
    intro h
    rw [h, zero_pow (by omega), mul_zero] at a
    have : mil R P n * mil R P n * (-1) = 0 := by
      have h5 := neg_eq_zero.mp a.symm
      exact (mul_eq_zero.mp h5).resolve_left (pow_ne_zero _ (by simp))
    rcases mul_eq_zero.mp this with h | h
    · exact mul_ne_zero k1 k1 h
    · exact absurd h (by simp)
  rw [mil_even _ _ hn, mil_even _ _ hn, ← b, hR,
    gv_zero_left (by simpa using den_mult h1.1 0), mul_one, pow_mul']
  rw [div_eq_div_iff (mul_ne_zero k1 k1) k2]
  have g1 := pow_ne_zero n g0
  apply mul_right_cancel₀ g1
  rw [sq, h3]
  linear_combination mil (P + P) R n * gv P P R ^ n * a
end

end Festa
