import Mathlib.Tactic.Ring
import Mathlib.Tactic.Linarith
import Mathlib.Tactic.LinearCombination
import Mathlib.Data.Nat.Size
import Mathlib.Data.Int.GCD
import Mathlib.Logic.Function.Iterate
import Mathlib.Algebra.Order.Group.Unbundled.Int
import Mathlib.Algebra.Order.Ring.Abs
import Mathlib.Algebra.Ring.Divisibility.Basic
/-!
The integer process behind the division and the Legendre symbol: 31 steps of a binary GCD whose
decisions are taken on 64-bit approximations `x`, `y` of the true values `A`, `B`.  The main result
`round_size` is that the total bit length drops by at least 31 (or the GCD is reached), even though
decisions may be wrong.
-/
namespace Festa.BinGcd

/-- Joint state: the words `x`, `y` on which decisions are made, the true values `A`, `B`, and the
accumulated factors. -/
structure J where
  x : ℕ
  y : ℕ
  A : ℤ
  B : ℤ
  f0 : ℤ
  g0 : ℤ
  f1 : ℤ
  g1 : ℤ

/-- One step. -/
def J.step (s : J) : J :=
  if s.x % 2 = 0 then
    ⟨s.x / 2, s.y, s.A / 2, s.B, s.f0, s.g0, 2 * s.f1, 2 * s.g1⟩
  else if s.x < s.y then
    ⟨(s.y - s.x) / 2, s.x, (s.B - s.A) / 2, s.A, s.f1 - s.f0, s.g1 - s.g0, 2 * s.f0, 2 * s.g0⟩
  else
    ⟨(s.x - s.y) / 2, s.y, (s.A - s.B) / 2, s.B, s.f0 - s.f1, s.g0 - s.g1, 2 * s.f1, 2 * s.g1⟩

/-- The algebraic invariant after `i` steps (congruences modulo `2^m`). -/
structure Inv (a b : ℤ) (i m : ℕ) (s : J) : Prop where
  yodd : s.y % 2 = 1
  Bodd : s.B % 2 = 1
  congA : (2 : ℤ) ^ m ∣ s.A - s.x
  congB : (2 : ℤ) ^ m ∣ s.B - s.y
  eqA : 2 ^ i * s.A = s.f0 * a + s.g0 * b
  eqB : 2 ^ i * s.B = s.f1 * a + s.g1 * b
  f0 : -2 ^ i < s.f0 ∧ s.f0 ≤ 2 ^ i
  g0 : -2 ^ i < s.g0 ∧ s.g0 ≤ 2 ^ i
  f1 : -2 ^ i < s.f1 ∧ s.f1 ≤ 2 ^ i
  g1 : -2 ^ i < s.g1 ∧ s.g1 ≤ 2 ^ i
  s0 : |s.f0| + |s.g0| ≤ 2 ^ i
  s1 : |s.f1| + |s.g1| ≤ 2 ^ i
  gcd : ∃ u v : ℤ, u * s.A + v * s.B = 1
  sign : ¬ (s.A < 0 ∧ s.B < 0)

theorem abs_sub_sum (a b c d N : ℤ) (h0 : |a| + |b| ≤ N) (h1 : |c| + |d| ≤ N) :
    |a - c| + |b - d| ≤ 2 * N := by
  have := abs_sub a c
  have := abs_sub b d
  linarith

theorem abs_two_sum (c d N : ℤ) (h1 : |c| + |d| ≤ N) : |2 * c| + |2 * d| ≤ 2 * N := by
  rw [abs_mul, abs_mul, abs_two]; linarith

/-- The parity of the true value is the parity of the word, and the three kinds of steps. -/
theorem step_cases {a b : ℤ} {i m : ℕ} {s : J} (h : Inv a b i (m + 1) s) :
    (s.x % 2 = 0 ∧ ∃ x' : ℕ, ∃ A' : ℤ, s.x = 2 * x' ∧ s.A = 2 * A' ∧
      s.step = ⟨x', s.y, A', s.B, s.f0, s.g0, 2 * s.f1, 2 * s.g1⟩) ∨
    (s.x % 2 = 1 ∧ s.A % 2 = 1 ∧ s.x < s.y ∧ ∃ x' : ℕ, ∃ A' : ℤ, s.y = s.x + 2 * x' ∧
      s.B - s.A = 2 * A' ∧
      s.step = ⟨x', s.x, A', s.A, s.f1 - s.f0, s.g1 - s.g0, 2 * s.f0, 2 * s.g0⟩) ∨
    (s.x % 2 = 1 ∧ s.A % 2 = 1 ∧ s.y ≤ s.x ∧ ∃ x' : ℕ, ∃ A' : ℤ, s.x = s.y + 2 * x' ∧
      s.A - s.B = 2 * A' ∧
      s.step = ⟨x', s.y, A', s.B, s.f0 - s.f1, s.g0 - s.g1, 2 * s.f1, 2 * s.g1⟩) := by
  have hpar : (2 : ℤ) ∣ s.A - s.x := (Dvd.intro_left _ (pow_succ 2 m).symm).trans h.congA
  have hy := h.yodd
  have hB := h.Bodd
  by_cases hx : s.x % 2 = 0
  · left
    refine ⟨hx, s.x / 2, s.A / 2, by omega, by omega, ?_⟩
    simp [J.step, hx]
  · right
    by_cases hlt : s.x < s.y
    · left
      refine ⟨by omega, by omega, hlt, (s.y - s.x) / 2, (s.B - s.A) / 2, by omega, by omega, ?_⟩
      simp [J.step, hx, hlt]
    · right
      refine ⟨by omega, by omega, by omega, (s.x - s.y) / 2, (s.A - s.B) / 2, by omega, by omega, ?_⟩
      simp [J.step, hx, hlt]

theorem dvd_half {m : ℕ} {z w : ℤ} (h : (2 : ℤ) ^ (m + 1) ∣ z) (e : z = 2 * w) : (2 : ℤ) ^ m ∣ w := by
  rw [e, pow_succ, mul_comm (2 ^ m)] at h
  exact (mul_dvd_mul_iff_left (by norm_num)).mp h

theorem dvd_drop {m : ℕ} {z : ℤ} (h : (2 : ℤ) ^ (m + 1) ∣ z) : (2 : ℤ) ^ m ∣ z :=
  (pow_dvd_pow 2 (by omega)).trans h

theorem Inv.step {a b : ℤ} {i m : ℕ} {s : J} (h : Inv a b i (m + 1) s) :
    Inv a b (i + 1) m s.step := by
  have hp : (2 : ℤ) ^ (i + 1) = 2 * 2 ^ i := by rw [pow_succ]; ring
  have hpos : (0 : ℤ) < 2 ^ i := by positivity
  obtain ⟨u, v, huv⟩ := h.gcd
  have f0 := h.f0
  have g0 := h.g0
  have f1 := h.f1
  have g1 := h.g1
  have hs := h.sign
  have eA := h.eqA
  have eB := h.eqB
  rcases step_cases h with ⟨hx, x', A', e1, e2, e⟩ | ⟨hx, hA, hlt, x', A', e1, e2, e⟩ |
    ⟨hx, hA, hlt, x', A', e1, e2, e⟩ <;> rw [e]
  · refine ⟨h.yodd, h.Bodd, ?_, dvd_drop h.congB, ?_, ?_, ?_, ?_, ?_, ?_, ?_, ?_, ?_, ?_⟩ <;>
      simp only
    · refine dvd_half h.congA ?_
      rw [e1, e2]; push_cast; ring
    · rw [hp, ← h.eqA, e2]; ring
    · rw [hp]; linear_combination 2 * eB
    · constructor <;> linarith [f0.1, f0.2]
    · constructor <;> linarith [g0.1, g0.2]
    · constructor <;> linarith [f1.1, f1.2]
    · constructor <;> linarith [g1.1, g1.2]
    · linarith [h.s0]
    · rw [hp]; exact abs_two_sum _ _ _ h.s1
    · exact ⟨2 * u, v, by rw [← huv, e2]; ring⟩
    · omega
  · refine ⟨hx, hA, ?_, dvd_drop h.congA, ?_, ?_, ?_, ?_, ?_, ?_, ?_, ?_, ?_, ?_⟩ <;>
      simp only
    · refine dvd_half (dvd_sub h.congB h.congA) ?_
      rw [e1]; push_cast; linear_combination e2
    · rw [hp]; linear_combination eB - eA - 2 ^ i * e2
    · rw [hp]; linear_combination 2 * eA
    · constructor <;> linarith [f0.1, f0.2, f1.1, f1.2]
    · constructor <;> linarith [g0.1, g0.2, g1.1, g1.2]
    · constructor <;> linarith [f0.1, f0.2]
    · constructor <;> linarith [g0.1, g0.2]
    · rw [hp]; exact abs_sub_sum _ _ _ _ _ h.s1 h.s0
    · rw [hp]; exact abs_two_sum _ _ _ h.s0
    · exact ⟨2 * v, u + v, by linear_combination huv - v * e2⟩
    · omega
  · refine ⟨h.yodd, h.Bodd, ?_, dvd_drop h.congB, ?_, ?_, ?_, ?_, ?_, ?_, ?_, ?_, ?_, ?_⟩ <;>
      simp only
    · refine dvd_half (dvd_sub h.congA h.congB) ?_
      rw [e1]; push_cast; linear_combination e2
    · rw [hp]; linear_combination eA - eB - 2 ^ i * e2
    · rw [hp]; linear_combination 2 * eB
    · constructor <;> linarith [f0.1, f0.2, f1.1, f1.2]
    · constructor <;> linarith [g0.1, g0.2, g1.1, g1.2]
    · constructor <;> linarith [f1.1, f1.2]
    · constructor <;> linarith [g1.1, g1.2]
    · rw [hp]; exact abs_sub_sum _ _ _ _ _ h.s0 h.s1
    · rw [hp]; exact abs_two_sum _ _ _ h.s1
    · exact ⟨2 * u, u + v, by linear_combination huv - u * e2⟩
    · omega

/-- Start of a round. -/
def start (a b : ℕ) (x y : ℕ) : J := ⟨x, y, a, b, 1, 0, 0, 1⟩

theorem inv_start {a b x y : ℕ} (m : ℕ) (hm : 1 ≤ m) (hb : b % 2 = 1) (hg : Nat.gcd a b = 1)
    (ha : (2 : ℤ) ^ m ∣ (a : ℤ) - x) (hby : (2 : ℤ) ^ m ∣ (b : ℤ) - y) :
    Inv a b 0 m (start a b x y) := by
  have h2 : (2 : ℤ) ∣ (b : ℤ) - y := (dvd_pow_self 2 (by omega)).trans hby
  refine ⟨?_, ?_, ha, hby, ?_, ?_, ?_, ?_, ?_, ?_, ?_, ?_, ?_, ?_⟩ <;> simp only [start]
  · omega
  · omega
  · ring
  · ring
  · norm_num
  · norm_num
  · norm_num
  · norm_num
  · norm_num
  · norm_num
  · have := Nat.gcd_eq_gcd_ab a b
    rw [hg] at this
    exact ⟨Nat.gcdA a b, Nat.gcdB a b, by push_cast at this; linarith⟩
  · omega

theorem inv_iterate {a b x y : ℕ} (m n : ℕ) (hm : 1 ≤ m + n) (hb : b % 2 = 1)
    (hg : Nat.gcd a b = 1)
    (ha : (2 : ℤ) ^ (m + n) ∣ (a : ℤ) - x) (hby : (2 : ℤ) ^ (m + n) ∣ (b : ℤ) - y) :
    Inv a b n m (J.step^[n] (start a b x y)) := by
  have key : ∀ k, k ≤ n → Inv a b k (m + n - k) (J.step^[k] (start a b x y)) := by
    intro k
    induction k with
    | zero => intro _; exact inv_start _ hm hb hg ha hby
    | succ k ih =>
      intro hk
      rw [Function.iterate_succ_apply']
      apply Inv.step
      have := ih (by omega)
      rwa [show m + n - (k + 1) + 1 = m + n - k by omega]
  have := key n le_rfl
  rwa [show m + n - n = m by omega] at this

/-! ### Sizes -/

/-- Bit length of the absolute value. -/
def sz (z : ℤ) : ℕ := Nat.size z.natAbs

theorem sz_le {z : ℤ} {p : ℕ} (h : |z| < 2 ^ p) : sz z ≤ p := by
  apply Nat.size_le.mpr
  have : ((z.natAbs : ℕ) : ℤ) < ((2 ^ p : ℕ) : ℤ) := by rw [Int.natCast_natAbs]; push_cast; exact h
  exact_mod_cast this

theorem lt_sz (z : ℤ) : |z| < 2 ^ sz z := by
  have : z.natAbs < 2 ^ sz z := Nat.lt_size_self _
  rw [← Int.natCast_natAbs]
  exact_mod_cast this

theorem sz_ge {z : ℤ} {p : ℕ} (h : 2 ^ p ≤ |z|) : p + 1 ≤ sz z := by
  by_contra hc
  have h1 := lt_sz z
  have : (2 : ℤ) ^ sz z ≤ 2 ^ p := pow_le_pow_right₀ (by norm_num) (by omega)
  omega

theorem sz_pos {z : ℤ} (h : z ≠ 0) : 1 ≤ sz z := by
  have : 1 ≤ |z| := Int.one_le_abs h
  exact sz_ge (p := 0) (by simpa using this)

theorem pow_pred {n : ℕ} (h : 1 ≤ n) : (2 : ℤ) ^ n = 2 * 2 ^ (n - 1) := by
  obtain ⟨k, rfl⟩ : ∃ k, n = k + 1 := ⟨n - 1, by omega⟩
  rw [pow_succ]; simp; ring

/-- A right step: the larger value loses at least one bit. -/
theorem sz_halve {A A' : ℤ} (h : A ≠ 0) (e : |2 * A'| ≤ |A|) : sz A' + 1 ≤ sz A := by
  have h1 := sz_pos h
  have h2 := lt_sz A
  rw [pow_pred h1] at h2
  rw [abs_mul, abs_two] at e
  have := sz_le (z := A') (p := sz A - 1) (by linarith)
  omega

/-! ### The exact mode: decisions are taken on the true values -/

/-- Bookkeeping of the total size: it has dropped by `i`, or the GCD has been reached. -/
def Drop (Φ i : ℕ) (s : J) : Prop := sz s.A + sz s.B + i ≤ Φ ∨ (s.A = 0 ∧ s.B = 1)

theorem right_step {a b : ℤ} {i m Φ : ℕ} {s : J} (h : Inv a b i (m + 1) s) (hA : 0 ≤ s.A)
    (hB : 0 ≤ s.B) (hd : Drop Φ i s) (hr : s.x % 2 = 1 → (s.x < s.y ↔ s.A < s.B)) :
    0 ≤ s.step.A ∧ 0 ≤ s.step.B ∧ Drop Φ (i + 1) s.step := by
  have hBo := h.Bodd
  have hA0 : s.A = 0 → s.B = 1 := by
    intro h0
    obtain ⟨u, v, huv⟩ := h.gcd
    rw [h0, mul_zero, zero_add] at huv
    have := Int.isUnit_iff.mp (IsUnit.of_mul_eq_one v (by rw [mul_comm]; exact huv))
    omega
  have nz : s.A ≠ 0 → sz s.A + sz s.B + i ≤ Φ := by
    intro hne
    rcases hd with hd | hd
    · exact hd
    · exact absurd hd.1 hne
  rcases step_cases h with ⟨hx, x', A', e1, e2, e⟩ | ⟨hx, hA1, hlt, x', A', e1, e2, e⟩ |
    ⟨hx, hA1, hlt, x', A', e1, e2, e⟩ <;> rw [e] <;> simp only [Drop]
  · refine ⟨by omega, hB, ?_⟩
    by_cases h0 : s.A = 0
    · right; exact ⟨by omega, hA0 h0⟩
    · left
      have := sz_halve (A := s.A) (A' := A') h0 (by rw [e2])
      have := nz h0
      omega
  · have := (hr hx).mp hlt
    refine ⟨by omega, hA, Or.inl ?_⟩
    have h1 := sz_halve (A := s.B) (A' := A') (by omega) (by
      rw [abs_of_nonneg (by omega), abs_of_nonneg hB]; omega)
    have := nz (by omega)
    omega
  · have hge : s.B ≤ s.A := by
      by_contra hc
      have := (hr hx).mpr (by omega)
      omega
    refine ⟨by omega, hB, Or.inl ?_⟩
    have h1 := sz_halve (A := s.A) (A' := A') (by omega) (by
      rw [abs_of_nonneg (by omega), abs_of_nonneg hA]; omega)
    have := nz (by omega)
    omega

/-- `n` exact steps (the words are the values). -/
theorem exact_iterate {a b : ℕ} (n : ℕ) (hb : b % 2 = 1) (hg : Nat.gcd a b = 1) :
    let s := J.step^[n] (start a b a b)
    0 ≤ s.A ∧ 0 ≤ s.B ∧ Drop (Nat.size a + Nat.size b) n s ∧ (s.x : ℤ) = s.A ∧ (s.y : ℤ) = s.B := by
  have inv : ∀ k, Inv a b k 1 (J.step^[k] (start a b a b)) := fun k =>
    inv_iterate 1 k (by omega) hb hg (by simp) (by simp)
  induction n with
  | zero =>
    refine ⟨by simp [start], by simp [start], Or.inl ?_, rfl, rfl⟩
    simp [start, sz]
  | succ k ih =>
    obtain ⟨h1, h2, h3, h4, h5⟩ := ih
    have hr := right_step (m := 0) (inv k) h1 h2 h3 (by intro _; rw [← h4, ← h5]; omega)
    rw [Function.iterate_succ_apply']
    refine ⟨hr.1, hr.2.1, hr.2.2, ?_⟩
    rcases step_cases (m := 0) (inv k) with ⟨hx, x', A', e1, e2, e⟩ |
      ⟨hx, hA1, hlt, x', A', e1, e2, e⟩ | ⟨hx, hA1, hlt, x', A', e1, e2, e⟩ <;>
      rw [e] <;> simp only <;> omega

/-! ### The approximate mode -/

/-- The approximation error stays below `2^31 * δ`. -/
structure Err (δ : ℤ) (s : J) : Prop where
  a : -(2 ^ 31 * δ) < s.x * δ - s.A ∧ s.x * δ - s.A < 2 ^ 31 * δ
  b : -(2 ^ 31 * δ) < s.y * δ - s.B ∧ s.y * δ - s.B < 2 ^ 31 * δ

theorem Err.step {a b : ℤ} {i m : ℕ} {s : J} {δ : ℤ} (h : Inv a b i (m + 1) s) (he : Err δ s) :
    Err δ s.step := by
  obtain ⟨⟨a1, a2⟩, b1, b2⟩ := he
  rcases step_cases h with ⟨hx, x', A', e1, e2, e⟩ | ⟨hx, hA1, hlt, x', A', e1, e2, e⟩ |
    ⟨hx, hA1, hlt, x', A', e1, e2, e⟩ <;> rw [e] <;> refine ⟨?_, ?_⟩ <;> simp only
  · have : (s.x : ℤ) * δ = 2 * (x' * δ) := by rw [e1]; push_cast; ring
    constructor <;> linarith
  · exact ⟨b1, b2⟩
  · have : (s.y : ℤ) * δ = s.x * δ + 2 * (x' * δ) := by rw [e1]; push_cast; ring
    constructor <;> linarith
  · exact ⟨a1, a2⟩
  · have : (s.x : ℤ) * δ = s.y * δ + 2 * (x' * δ) := by rw [e1]; push_cast; ring
    constructor <;> linarith
  · exact ⟨b1, b2⟩

/-- One of the values is so small that no decision can be wrong. -/
def Easy (δ : ℤ) (i : ℕ) (s : J) : Prop :=
  (s.x < 2 ^ 31 ∧ s.A < 2 ^ 31 * δ ∧ 2 ^ 63 ≤ s.y ∧ 2 ^ 63 * δ ≤ s.B) ∨
  (s.y < 2 ^ 31 ∧ s.B < 2 ^ 31 * δ ∧ (2 : ℤ) ^ (63 - i) - 2 ^ 31 ≤ s.x ∧
    ((2 : ℤ) ^ (63 - i) - 2 ^ 31) * δ ≤ s.A)

theorem Easy.right {δ : ℤ} {i : ℕ} {s : J} (hδ : 1 ≤ δ) (hi : i ≤ 30) (h : Easy δ i s) :
    s.x < s.y ↔ s.A < s.B := by
  have hp : (2 : ℤ) ^ 33 ≤ 2 ^ (63 - i) := pow_le_pow_right₀ (by norm_num) (by omega)
  rcases h with ⟨h1, h2, h3, h4⟩ | ⟨h1, h2, h3, h4⟩
  · have e1 : s.x < s.y := by omega
    have e2 : s.A < s.B := by linarith
    simp [e1, e2]
  · have e1 : ¬ s.x < s.y := by
      have : (s.y : ℤ) < 2 ^ 31 := by exact_mod_cast h1
      intro hc
      have : (s.x : ℤ) < s.y := by exact_mod_cast hc
      norm_num at *
      omega
    have e2 : ¬ s.A < s.B := by
      have : ((2 : ℤ) ^ 33 - 2 ^ 31) * δ ≤ (2 ^ (63 - i) - 2 ^ 31) * δ :=
        mul_le_mul_of_nonneg_right (by linarith) (by linarith)
      intro hc
      norm_num at *
      linarith
    simp [e1, e2]

theorem Easy.step {a b : ℤ} {i m : ℕ} {s : J} {δ : ℤ} (h : Inv a b i (m + 1) s) (hδ : 1 ≤ δ)
    (hi : i ≤ 30) (hA : 0 ≤ s.A) (hB : 0 ≤ s.B) (he : Easy δ i s) : Easy δ (i + 1) s.step := by
  have hr := he.right hδ hi
  have hp : (2 : ℤ) ^ (63 - i) = 2 * 2 ^ (63 - (i + 1)) := by
    rw [show 63 - i = (63 - (i + 1)) + 1 by omega, pow_succ]; ring
  have hp2 : (2 : ℤ) ^ (63 - (i + 1)) ≤ 2 ^ 62 := pow_le_pow_right₀ (by norm_num) (by omega)
  have hp3 : (2 : ℤ) ^ 32 ≤ 2 ^ (63 - (i + 1)) := pow_le_pow_right₀ (by norm_num) (by omega)
  unfold Easy at he ⊢
  rw [hp] at he
  generalize (2 : ℤ) ^ (63 - (i + 1)) = q at *
  have hq : q * δ ≤ 2 ^ 62 * δ := mul_le_mul_of_nonneg_right hp2 (by linarith)
  have hq2 : 2 ^ 32 * δ ≤ q * δ := mul_le_mul_of_nonneg_right hp3 (by linarith)
  rcases step_cases h with ⟨hx, x', A', e1, e2, e⟩ | ⟨hx, hA1, hlt, x', A', e1, e2, e⟩ |
    ⟨hx, hA1, hlt, x', A', e1, e2, e⟩ <;> rw [e] <;> simp only
  · rcases he with ⟨h1, h2, h3, h4⟩ | ⟨h1, h2, h3, h4⟩
    · left; exact ⟨by omega, by linarith, h3, h4⟩
    · right
      refine ⟨h1, h2, ?_, ?_⟩
      · have : (s.x : ℤ) = 2 * x' := by exact_mod_cast e1
        norm_num at *; omega
      · norm_num at *; nlinarith
  · rcases he with ⟨h1, h2, h3, h4⟩ | ⟨h1, h2, h3, h4⟩
    · right
      refine ⟨h1, h2, ?_, ?_⟩
      · have : (s.y : ℤ) = s.x + 2 * x' := by exact_mod_cast e1
        norm_num at *; omega
      · norm_num at *; nlinarith
    · exfalso
      have : (s.y : ℤ) < 2 ^ 31 := by exact_mod_cast h1
      have : (s.x : ℤ) < s.y := by exact_mod_cast hlt
      norm_num at *; omega
  · rcases he with ⟨h1, h2, h3, h4⟩ | ⟨h1, h2, h3, h4⟩
    · omega
    · right
      refine ⟨h1, h2, ?_, ?_⟩
      · have : (s.x : ℤ) = s.y + 2 * x' := by exact_mod_cast e1
        have : (s.y : ℤ) < 2 ^ 31 := by exact_mod_cast h1
        norm_num at *; omega
      · norm_num at *; nlinarith

/-- After a wrong decision, `j` steps ago, with the larger value below `2^k * δ`. -/
def Wrong (δ : ℤ) (j k : ℕ) (s : J) : Prop :=
  (|s.A| * 2 ^ j < 2 ^ 31 * δ ∧ s.x * 2 ^ j < 2 ^ 31 ∧ |s.B| < 2 ^ k * δ ∧
    s.y < 2 ^ k + 2 ^ 31) ∨
  (∃ t r, j = t + r ∧ 1 ≤ r ∧ |s.B| * 2 ^ t < 2 ^ 31 * δ ∧ s.y * 2 ^ t < 2 ^ 31 ∧
    s.x * 2 ^ r < 2 ^ k + 2 ^ 31) ∨
  (s.x < 2 ^ 31 ∧ s.y < 2 ^ 31)

theorem lt_of_mul_pow {x j N : ℕ} (h : x * 2 ^ j < N) : x < N :=
  lt_of_le_of_lt (Nat.le_mul_of_pos_right x (by positivity)) h

theorem Wrong.step {a b : ℤ} {i m j k : ℕ} {s : J} {δ : ℤ} (h : Inv a b i (m + 1) s)
    (hw : Wrong δ j k s) : Wrong δ (j + 1) k s.step := by
  unfold Wrong at hw ⊢
  rcases step_cases h with ⟨hx, x', A', e1, e2, e⟩ | ⟨hx, hA1, hlt, x', A', e1, e2, e⟩ |
    ⟨hx, hA1, hlt, x', A', e1, e2, e⟩ <;> rw [e] <;> simp only
  · rcases hw with ⟨h1, h2, h3, h4⟩ | ⟨t, r, h1, h2, h3, h4, h5⟩ | ⟨h1, h2⟩
    · left
      refine ⟨?_, ?_, h3, h4⟩
      · rw [e2, abs_mul, abs_two] at h1
        rw [pow_succ]; linarith
      · rw [e1] at h2
        rw [pow_succ]; linarith
    · right; left
      refine ⟨t, r + 1, by omega, by omega, h3, h4, ?_⟩
      rw [e1] at h5
      rw [pow_succ]; linarith
    · right; right; omega
  · rcases hw with ⟨h1, h2, h3, h4⟩ | ⟨t, r, h1, h2, h3, h4, h5⟩ | ⟨h1, h2⟩
    · right; left
      refine ⟨j, 1, rfl, le_rfl, h1, h2, ?_⟩
      omega
    · right; right
      have := lt_of_mul_pow h4
      omega
    · right; right; omega
  · rcases hw with ⟨h1, h2, h3, h4⟩ | ⟨t, r, h1, h2, h3, h4, h5⟩ | ⟨h1, h2⟩
    · right; right
      have := lt_of_mul_pow h2
      omega
    · right; left
      refine ⟨t, r + 1, by omega, by omega, h3, h4, ?_⟩
      rw [pow_succ]
      have : x' * (2 ^ r * 2) ≤ s.x * 2 ^ r := by
        rw [e1]; nlinarith [Nat.zero_le (s.y * 2 ^ r)]
      omega
    · right; right; omega

theorem lt_pow_sub {z : ℤ} {j p : ℕ} (hj : j ≤ p) (h : |z| * 2 ^ j < 2 ^ p) : sz z ≤ p - j := by
  apply sz_le
  have : (2 : ℤ) ^ p = 2 ^ (p - j) * 2 ^ j := by rw [← pow_add]; congr 1; omega
  rw [this] at h
  exact lt_of_mul_lt_mul_right h (by positivity)

theorem abs_le_of_err {A x δ : ℤ} (hx : 0 ≤ x) (hδ : 1 ≤ δ)
    (h : -(2 ^ 31 * δ) < x * δ - A ∧ x * δ - A < 2 ^ 31 * δ) : |A| < (x + 2 ^ 31) * δ := by
  have : 0 ≤ x * δ := mul_nonneg hx (by linarith)
  rw [abs_lt]
  constructor <;> nlinarith [h.1, h.2]

/-- The final size after a wrong decision `j` steps ago. -/
theorem Wrong.size {j k d : ℕ} {s : J} (he : Err (2 ^ d) s) (hj : j ≤ 30) (hk : 34 ≤ k)
    (hw : Wrong (2 ^ d) j k s) :
    sz s.A + sz s.B ≤ 65 + 2 * d ∨ (35 ≤ k ∧ sz s.A + sz s.B + j ≤ k + 33 + 2 * d) := by
  have hδ : (1 : ℤ) ≤ 2 ^ d := one_le_pow₀ (by norm_num)
  have hp : ∀ q : ℕ, (2 : ℤ) ^ q * 2 ^ d = 2 ^ (q + d) := fun q => (pow_add 2 q d).symm
  have small : ∀ {Z : ℤ} {z : ℕ}, z < 2 ^ 31 →
      (-(2 ^ 31 * (2:ℤ) ^ d) < z * 2 ^ d - Z ∧ z * 2 ^ d - Z < 2 ^ 31 * 2 ^ d) → sz Z ≤ 32 + d := by
    intro Z z hz h
    apply sz_le
    have h1 := abs_le_of_err (by positivity) hδ h
    have : ((z : ℤ) + 2 ^ 31) * 2 ^ d ≤ 2 ^ 32 * 2 ^ d := by
      apply mul_le_mul_of_nonneg_right _ (by positivity)
      have : (z : ℤ) < 2 ^ 31 := by exact_mod_cast hz
      norm_num at *; omega
    rw [hp 32] at this
    linarith
  rcases hw with ⟨h1, h2, h3, h4⟩ | ⟨t, r, h1, h2, h3, h4, h5⟩ | ⟨h1, h2⟩
  · rw [hp] at h1 h3
    have a1 := lt_pow_sub (by omega) h1
    have a2 := sz_le h3
    by_cases hk' : 35 ≤ k
    · right; omega
    · left; omega
  · rw [hp] at h3
    have a1 := lt_pow_sub (by omega) h3
    by_cases hx : s.x < 2 ^ 31
    · left
      have := small hx he.a
      omega
    · have ha := abs_le_of_err (by positivity) hδ he.a
      by_cases hk' : 35 ≤ k
      · right
        refine ⟨hk', ?_⟩
        have b1 : |s.A| * 2 ^ r < 2 ^ (k + 2 + d) := by
          have c1 : (s.x : ℤ) * 2 ^ r < 2 ^ k + 2 ^ 31 := by exact_mod_cast h5
          have c2 : (2 : ℤ) ^ 31 ≤ s.x := by
            have : 2 ^ 31 ≤ s.x := by omega
            exact_mod_cast this
          have c3 : (2 : ℤ) ^ 31 ≤ 2 ^ k := pow_le_pow_right₀ (by norm_num) (by omega)
          have pr : (0 : ℤ) < 2 ^ r := by positivity
          have pd : (0 : ℤ) < 2 ^ d := by positivity
          have d1 : |s.A| * 2 ^ r < (s.x + 2 ^ 31) * 2 ^ d * 2 ^ r :=
            mul_lt_mul_of_pos_right ha pr
          have d2 : ((s.x : ℤ) + 2 ^ 31) * 2 ^ d * 2 ^ r ≤ (s.x * 2 ^ r * 2) * 2 ^ d := by
            have : ((s.x : ℤ) + 2 ^ 31) * (2 ^ d * 2 ^ r) ≤ (s.x * 2) * (2 ^ d * 2 ^ r) :=
              mul_le_mul_of_nonneg_right (by linarith) (by positivity)
            linarith
          have d3 : ((s.x : ℤ) * 2 ^ r * 2) * 2 ^ d ≤ (2 ^ k * 4) * 2 ^ d :=
            mul_le_mul_of_nonneg_right (by linarith) (by positivity)
          have d4 : (2 : ℤ) ^ (k + 2 + d) = (2 ^ k * 4) * 2 ^ d := by
            rw [pow_add, pow_add]; norm_num
          linarith
        have b2 := lt_pow_sub (by omega) b1
        omega
      · left
        have hk34 : k = 34 := by omega
        subst hk34
        have e1 : s.x * 2 < 2 ^ 34 + 2 ^ 31 := by
          have : 2 ^ 1 ≤ 2 ^ r := Nat.pow_le_pow_right (by norm_num) h2
          have : s.x * 2 ≤ s.x * 2 ^ r := Nat.mul_le_mul_left _ (by simpa using this)
          omega
        have e2 : ((s.x : ℤ) + 2 ^ 31) * 2 ^ d ≤ 2 ^ 34 * 2 ^ d := by
          apply mul_le_mul_of_nonneg_right _ (by positivity)
          have : (s.x : ℤ) * 2 < 2 ^ 34 + 2 ^ 31 := by exact_mod_cast e1
          norm_num at *; omega
        rw [hp] at e2
        have := sz_le (lt_of_lt_of_le ha e2)
        omega
  · left
    have := small h1 he.a
    have := small h2 he.b
    omega

/-- The state after `i` steps of the approximate mode, with target size `Φ` at the start. -/
def St (d Φ i : ℕ) (s : J) : Prop :=
  (0 ≤ s.A ∧ 0 ≤ s.B ∧ Drop Φ i s ∧ (96 + 2 * d ≤ Φ ∨ Easy (2 ^ d) i s)) ∨
  (96 + 2 * d ≤ Φ ∧ ∃ i0 j k, i = i0 + 1 + j ∧ 34 ≤ k ∧
    (k = 34 ∨ 2 * k - 1 + 2 * d + i0 ≤ Φ) ∧ Wrong (2 ^ d) j k s)

/-- A wrong decision has just been made on values `A`, `B`. -/
theorem wrong_start {a b : ℤ} {i m d Φ : ℕ} {s : J} (h : Inv a b i (m + 1) s)
    (he : Err (2 ^ d) s) (hA : 0 ≤ s.A) (hB : 0 ≤ s.B) (hd : Drop Φ i s) (hx : s.x % 2 = 1)
    (hw : ¬ (s.x < s.y ↔ s.A < s.B)) :
    ∃ k, 34 ≤ k ∧ (k = 34 ∨ 2 * k - 1 + 2 * d + i ≤ Φ) ∧ Wrong (2 ^ d) 0 k s.step := by
  have hδ : (1 : ℤ) ≤ 2 ^ d := one_le_pow₀ (by norm_num)
  have hp : ∀ q : ℕ, (2 : ℤ) ^ q * 2 ^ d = 2 ^ (q + d) := fun q => (pow_add 2 q d).symm
  have hAodd : s.A % 2 = 1 := by
    rcases step_cases h with ⟨h0, _⟩ | ⟨_, h1, _⟩ | ⟨_, h1, _⟩ <;> omega
  have hsum : sz s.A + sz s.B + i ≤ Φ := by
    rcases hd with h | h
    · exact h
    · omega
  obtain ⟨⟨a1, a2⟩, b1, b2⟩ := he
  -- the larger value
  have main : ∀ (M mn : ℤ) (X xm : ℕ), 0 ≤ mn → mn ≤ M → xm ≤ X →
      M - mn + (X - xm : ℤ) * 2 ^ d < 2 ^ 32 * 2 ^ d →
      sz M + sz mn + i ≤ Φ → X * 2 ^ d - M < 2 ^ 31 * (2 : ℤ) ^ d →
      xm * 2 ^ d - mn < 2 ^ 31 * (2 : ℤ) ^ d →
      ∃ k, 34 ≤ k ∧ (k = 34 ∨ 2 * k - 1 + 2 * d + i ≤ Φ) ∧ |M| < 2 ^ k * 2 ^ d ∧
        X < 2 ^ k + 2 ^ 31 ∧ xm < 2 ^ k + 2 ^ 31 := by
    intro M mn X xm h0 hle hxle hdiff hs hX hxm
    have hM0 : 0 ≤ M := by omega
    have word : ∀ (k : ℕ) (Z : ℤ) (z : ℕ), Z < 2 ^ k * 2 ^ d →
        z * 2 ^ d - Z < 2 ^ 31 * (2 : ℤ) ^ d → z < 2 ^ k + 2 ^ 31 := by
      intro k Z z h1 h2
      have : (z : ℤ) * 2 ^ d < (2 ^ k + 2 ^ 31) * 2 ^ d := by linarith
      have := lt_of_mul_lt_mul_right this (by positivity)
      exact_mod_cast this
    by_cases hM : sz M ≤ 34 + d
    · have hM' : |M| < 2 ^ 34 * 2 ^ d := by
        rw [hp]
        exact lt_of_lt_of_le (lt_sz M) (pow_le_pow_right₀ (by norm_num) hM)
      refine ⟨34, le_rfl, Or.inl rfl, hM', word _ M _ ?_ hX, word _ mn _ ?_ hxm⟩
      · rwa [abs_of_nonneg hM0] at hM'
      · rw [abs_of_nonneg hM0] at hM'; linarith
    · have hk : (2 : ℤ) ^ (sz M - d) * 2 ^ d = 2 ^ (sz M) := by
        rw [← pow_add]; congr 1; omega
      have hlt : |M| < 2 ^ (sz M - d) * 2 ^ d := by rw [hk]; exact lt_sz M
      refine ⟨sz M - d, by omega, Or.inr ?_, hlt, word _ M _ ?_ hX, word _ mn _ ?_ hxm⟩
      · -- the smaller value has at least `sz M - 1` bits
        have hge : (2 : ℤ) ^ (sz M - 1) ≤ M := by
          by_contra hc
          have := sz_le (z := M) (p := sz M - 1) (by rw [abs_of_nonneg hM0]; omega)
          omega
        have h2 : (2 : ℤ) ^ (sz M - 1) = 2 * 2 ^ (sz M - 2) := by
          rw [pow_pred (by omega)]; rfl
        have h3 : (2 : ℤ) ^ (33 + d) ≤ 2 ^ (sz M - 2) := pow_le_pow_right₀ (by norm_num) (by omega)
        have h4 : (2 : ℤ) ^ 32 * 2 ^ d ≤ 2 ^ (33 + d) := by
          rw [hp]; exact pow_le_pow_right₀ (by norm_num) (by omega)
        have h5 : (0 : ℤ) ≤ (X - xm : ℤ) * 2 ^ d :=
          mul_nonneg (by have : (xm : ℤ) ≤ X := by exact_mod_cast hxle
                         linarith) (by positivity)
        have := sz_ge (z := mn) (p := sz M - 2) (by rw [abs_of_nonneg h0]; linarith)
        omega
      · rwa [abs_of_nonneg hM0] at hlt
      · rw [abs_of_nonneg hM0] at hlt; linarith
  rcases step_cases h with ⟨h0, _⟩ | ⟨hx, hA1, hlt, x', A', e1, e2, e⟩ |
    ⟨hx, hA1, hlt, x', A', e1, e2, e⟩
  · omega
  · have hAB : s.B ≤ s.A := by
      by_contra hc
      exact hw ⟨fun _ => by omega, fun _ => hlt⟩
    have hyx : (s.y : ℤ) * 2 ^ d - s.x * 2 ^ d = 2 * (x' * 2 ^ d) := by
      rw [e1]; push_cast; ring
    have hx'0 : (0 : ℤ) ≤ x' * 2 ^ d := by positivity
    obtain ⟨k, k1, k2, k3, k4, k5⟩ := main s.A s.B s.y s.x hB hAB hlt.le (by linarith)
      (by omega) (by linarith) (by linarith)
    refine ⟨k, k1, k2, ?_⟩
    rw [e]
    left
    refine ⟨?_, ?_, k3, k5⟩ <;> simp only [pow_zero, mul_one]
    · rw [abs_lt]; constructor <;> linarith
    · have : (x' : ℤ) * 2 ^ d < 2 ^ 31 * 2 ^ d := by linarith
      have := lt_of_mul_lt_mul_right this (by positivity)
      exact_mod_cast this
  · have hAB : s.A < s.B := by
      by_contra hc
      exact hw ⟨fun _ => by omega, fun _ => by omega⟩
    have hyx : (s.x : ℤ) * 2 ^ d - s.y * 2 ^ d = 2 * (x' * 2 ^ d) := by
      rw [e1]; push_cast; ring
    have hx'0 : (0 : ℤ) ≤ x' * 2 ^ d := by positivity
    obtain ⟨k, k1, k2, k3, k4, k5⟩ := main s.B s.A s.x s.y hA hAB.le hlt (by linarith)
      (by omega) (by linarith) (by linarith)
    refine ⟨k, k1, k2, ?_⟩
    rw [e]
    left
    refine ⟨?_, ?_, k3, k5⟩ <;> simp only [pow_zero, mul_one]
    · rw [abs_lt]; constructor <;> linarith
    · have : (x' : ℤ) * 2 ^ d < 2 ^ 31 * 2 ^ d := by linarith
      have := lt_of_mul_lt_mul_right this (by positivity)
      exact_mod_cast this

theorem St.step {a b : ℤ} {i m d Φ : ℕ} {s : J} (hi : i ≤ 30) (h : Inv a b i (m + 1) s)
    (he : Err (2 ^ d) s) (hs : St d Φ i s) : St d Φ (i + 1) s.step := by
  have hδ : (1 : ℤ) ≤ 2 ^ d := one_le_pow₀ (by norm_num)
  rcases hs with ⟨hA, hB, hd, hq⟩ | ⟨hΦ, i0, j, k, e1, e2, e3, e4⟩
  · by_cases hw : s.x % 2 = 1 → (s.x < s.y ↔ s.A < s.B)
    · left
      obtain ⟨r1, r2, r3⟩ := right_step h hA hB hd hw
      refine ⟨r1, r2, r3, ?_⟩
      rcases hq with hq | hq
      · exact Or.inl hq
      · exact Or.inr (hq.step h hδ hi hA hB)
    · right
      have hx : s.x % 2 = 1 := by
        by_contra hc
        exact hw (fun h' => absurd h' hc)
      have hw' : ¬ (s.x < s.y ↔ s.A < s.B) := fun h' => hw (fun _ => h')
      have hΦ : 96 + 2 * d ≤ Φ := by
        rcases hq with hq | hq
        · exact hq
        · exact absurd (hq.right hδ hi) hw'
      obtain ⟨k, k1, k2, k3⟩ := wrong_start h he hA hB hd hx hw'
      exact ⟨hΦ, i, 0, k, rfl, k1, k2, k3⟩
  · right
    exact ⟨hΦ, i0, j + 1, k, by omega, e2, e3, e4.step h⟩

/-- What the approximation words are, `d` bits above the 64-bit range. -/
structure Approx (a b x y d : ℕ) : Prop where
  x_eq : x = 2 ^ 31 * (a / 2 ^ (31 + d)) + a % 2 ^ 31
  y_eq : y = 2 ^ 31 * (b / 2 ^ (31 + d)) + b % 2 ^ 31
  lt : max a b < 2 ^ (64 + d)
  le : 2 ^ (63 + d) ≤ max a b

theorem approx_err {a x d : ℕ} (h : x = 2 ^ 31 * (a / 2 ^ (31 + d)) + a % 2 ^ 31) :
    -(2 ^ 31 * (2:ℤ) ^ d) < x * 2 ^ d - a ∧ x * 2 ^ d - a < 2 ^ 31 * (2:ℤ) ^ d := by
  have h1 := Nat.div_add_mod a (2 ^ (31 + d))
  have h2 : a % 2 ^ (31 + d) < 2 ^ (31 + d) := Nat.mod_lt _ (by positivity)
  have h3 : a % 2 ^ 31 < 2 ^ 31 := Nat.mod_lt _ (by positivity)
  rw [pow_add] at h1 h2
  rw [pow_add] at h
  generalize a / (2 ^ 31 * 2 ^ d) = q at *
  generalize a % (2 ^ 31 * 2 ^ d) = r at *
  generalize a % 2 ^ 31 = u at *
  have e : (x : ℤ) * 2 ^ d - a = u * 2 ^ d - r := by
    rw [← h1, h]; push_cast; ring
  rw [e]
  have h2' : (r : ℤ) < 2 ^ 31 * 2 ^ d := by exact_mod_cast h2
  have h3' : (u : ℤ) * 2 ^ d < 2 ^ 31 * 2 ^ d := by
    apply mul_lt_mul_of_pos_right _ (by positivity)
    exact_mod_cast h3
  have : (0 : ℤ) ≤ u * 2 ^ d := by positivity
  have : (0 : ℤ) ≤ r := by positivity
  constructor <;> linarith

theorem approx_cong {a x d : ℕ} (h : x = 2 ^ 31 * (a / 2 ^ (31 + d)) + a % 2 ^ 31) :
    (2 : ℤ) ^ 31 ∣ (a : ℤ) - x := by
  have h1 := Nat.div_add_mod a (2 ^ 31)
  have : (a : ℤ) - x = 2 ^ 31 * ((a / 2 ^ 31 : ℕ) - (a / 2 ^ (31 + d) : ℕ) : ℤ) := by
    rw [h]
    nth_rewrite 1 [← h1]
    push_cast
    ring
  rw [this]
  exact Dvd.intro _ rfl

theorem approx_small {a x d : ℕ} (h : x = 2 ^ 31 * (a / 2 ^ (31 + d)) + a % 2 ^ 31)
    (ha : a < 2 ^ (31 + d)) : x < 2 ^ 31 := by
  rw [Nat.div_eq_of_lt ha] at h
  omega

theorem approx_big {a x d : ℕ} (h : x = 2 ^ 31 * (a / 2 ^ (31 + d)) + a % 2 ^ 31)
    (ha : 2 ^ (63 + d) ≤ a) : 2 ^ 63 ≤ x := by
  have : 2 ^ 32 ≤ a / 2 ^ (31 + d) := by
    rw [Nat.le_div_iff_mul_le (by positivity), ← pow_add]
    convert ha using 2
    ring
  omega

theorem size_ge {a p : ℕ} (h : 2 ^ p ≤ a) : p + 1 ≤ Nat.size a := Nat.lt_size.mpr h

theorem st_start {a b x y d : ℕ} (h : Approx a b x y d) :
    St d (Nat.size a + Nat.size b) 0 (start a b x y) := by
  left
  refine ⟨by simp [start], by simp [start], Or.inl (by simp [start, sz]), ?_⟩
  by_cases hmin : min a b < 2 ^ (31 + d)
  · right
    have hp : (2 : ℤ) ^ 31 * 2 ^ d = 2 ^ (31 + d) := (pow_add 2 31 d).symm
    have hp' : (2 : ℤ) ^ 63 * 2 ^ d = 2 ^ (63 + d) := (pow_add 2 63 d).symm
    have hlt : (2 : ℕ) ^ (31 + d) < 2 ^ (63 + d) := Nat.pow_lt_pow_right (by norm_num) (by omega)
    have hle := h.le
    rcases le_total a b with hab | hab
    · rw [min_eq_left hab] at hmin
      rw [max_eq_right hab] at hle
      left
      refine ⟨approx_small h.x_eq hmin, ?_, approx_big h.y_eq hle, ?_⟩
      · simp only [start]; rw [hp]; exact_mod_cast hmin
      · simp only [start]; rw [hp']; exact_mod_cast hle
    · rw [min_eq_right hab] at hmin
      rw [max_eq_left hab] at hle
      right
      have hx := approx_big h.x_eq hle
      refine ⟨approx_small h.y_eq hmin, ?_, ?_, ?_⟩
      · simp only [start]; rw [hp]; exact_mod_cast hmin
      · simp only [start]
        have : (2 : ℤ) ^ 63 ≤ x := by exact_mod_cast hx
        norm_num at *; omega
      · simp only [start]
        have : (2 : ℤ) ^ (63 + d) ≤ a := by exact_mod_cast hle
        rw [← hp'] at this
        have h0 : (0 : ℤ) ≤ 2 ^ 31 * 2 ^ d := by positivity
        simp only [Nat.sub_zero]
        linarith [sub_mul ((2 : ℤ) ^ 63) (2 ^ 31) (2 ^ d)]
  · left
    have h1 := h.le
    rcases le_total a b with hab | hab
    · rw [min_eq_left hab] at hmin
      rw [max_eq_right hab] at h1
      have := size_ge h1
      have := size_ge (not_lt.mp hmin)
      omega
    · rw [min_eq_right hab] at hmin
      rw [max_eq_left hab] at h1
      have := size_ge h1
      have := size_ge (not_lt.mp hmin)
      omega

/-- One round of 31 steps, approximate or exact: the algebraic invariant, and the total size drops
by at least 31 or the GCD is reached (up to sign). -/
theorem round_size {a b x y : ℕ} (hb : b % 2 = 1) (hg : Nat.gcd a b = 1)
    (h : (x = a ∧ y = b) ∨ ∃ d, Approx a b x y d) :
    let s := J.step^[31] (start a b x y)
    Inv a b 31 0 s ∧
      (sz s.A + sz s.B + 31 ≤ Nat.size a + Nat.size b ∨ (s.A = 0 ∧ |s.B| = 1)) := by
  rcases h with ⟨rfl, rfl⟩ | ⟨d, h⟩
  · refine ⟨inv_iterate 0 31 (by omega) hb hg (by simp) (by simp), ?_⟩
    have := (exact_iterate 31 hb hg).2.2.1
    rcases this with h | h
    · exact Or.inl h
    · exact Or.inr ⟨h.1, by rw [h.2]; rfl⟩
  · have ha := approx_cong h.x_eq
    have hbb := approx_cong h.y_eq
    have key : ∀ k, k ≤ 31 → Inv a b k (31 - k) (J.step^[k] (start a b x y)) ∧
        Err (2 ^ d) (J.step^[k] (start a b x y)) ∧
        St d (Nat.size a + Nat.size b) k (J.step^[k] (start a b x y)) := by
      intro k
      induction k with
      | zero =>
        intro _
        exact ⟨inv_start _ (by omega) hb hg ha hbb,
          ⟨approx_err h.x_eq, approx_err h.y_eq⟩, st_start h⟩
      | succ k ih =>
        intro hk
        obtain ⟨i1, i2, i3⟩ := ih (by omega)
        rw [show 31 - k = (31 - (k + 1)) + 1 by omega] at i1
        rw [Function.iterate_succ_apply']
        exact ⟨i1.step, i2.step i1, i3.step (by omega) i1 i2⟩
    obtain ⟨i1, i2, i3⟩ := key 31 le_rfl
    refine ⟨i1, ?_⟩
    rcases i3 with ⟨_, _, hd, _⟩ | ⟨hΦ, i0, j, k, e1, e2, e3, e4⟩
    · rcases hd with h | h
      · exact Or.inl h
      · exact Or.inr ⟨h.1, by rw [h.2]; rfl⟩
    · left
      have hs := e4.size i2 (by omega) e2
      rcases hs with hs | ⟨h35, hs⟩
      · omega
      · omega

end Festa.BinGcd
