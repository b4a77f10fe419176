import Verif.Lemmas.Weil
import Mathlib.Tactic.Module
import Mathlib.FieldTheory.IsAlgClosed.AlgebraicClosure
/-!
The Weil pairing on a basis: `we n Q (a P + b Q) = (we n Q P) ^ a`.  The part with `b` (the pairing is
alternating) comes from the pairing of order `2 n` over an algebraic closure, where the points can be
halved.
-/
namespace Festa
open WeierstrassCurve.Affine
variable {K : Type*} [Field K] [DecidableEq K] {A : K}

theorem IsBasis.symm {H : Type*} [AddCommGroup H] {D : Nat} {P Q : H} (h : IsBasis D P Q) :
    IsBasis D Q P := fun a b => by rw [add_comm, h b a, and_comm]

/-- `P` and `M` are independent modulo `d` and killed by `N`. -/
structure Indep {H : Type*} [AddCommGroup H] (d N : Nat) (P M : H) : Prop where
  rel : ∀ a b : Int, a • P + b • M = 0 → (d : Int) ∣ a ∧ (d : Int) ∣ b
  tl : N • P = 0
  tr : N • M = 0

theorem Indep.symm {H : Type*} [AddCommGroup H] {d N : Nat} {P M : H} (h : Indep d N P M) :
    Indep d N M P := ⟨fun a b hab => (h.rel b a (by rw [add_comm]; exact hab)).symm, h.tr, h.tl⟩

section
variable {d N : Nat} {P M : MPoint A}

theorem Indep.nd1 (h : Indep d N P M) {a b : Int} (ha : ¬(d : Int) ∣ a) :
    ND M (a • P + b • M) := by
  refine ⟨?_, ?_⟩
  · intro hm
    obtain ⟨k, hk⟩ := AddSubgroup.mem_zmultiples_iff.mp hm
    have e : (k * a) • P + (k * b - 1) • M = 0 := by
      have : k • (a • P + b • M) - M = 0 := sub_eq_zero.mpr hk
      rw [← this]; module
    obtain ⟨h1, h2⟩ := h.rel _ _ e
    apply ha
    have : a = (k * a) * b - a * (k * b - 1) := by ring
    rw [this]
    exact dvd_sub (h1.mul_right _) (h2.mul_left _)
  · intro hm
    obtain ⟨k, hk⟩ := AddSubgroup.mem_zmultiples_iff.mp hm
    have e : a • P + (b - k) • M = 0 := by
      have : a • P + b • M - k • M = 0 := sub_eq_zero.mpr hk.symm
      rw [← this]; module
    exact ha (h.rel _ _ e).1

theorem Indep.nd2 (h : Indep d N P M) {a b : Int} (hab : ¬(d : Int) ∣ a - b) :
    ND (P + a • M) (P + b • M) := by
  have key : ∀ a b : Int, ¬(d : Int) ∣ a - b → P + a • M ∉ AddSubgroup.zmultiples (P + b • M) := by
    intro a b hab hm
    obtain ⟨k, hk⟩ := AddSubgroup.mem_zmultiples_iff.mp hm
    have e : (k - 1) • P + (k * b - a) • M = 0 := by
      have : k • (P + b • M) - (P + a • M) = 0 := sub_eq_zero.mpr hk
      rw [← this]; module
    obtain ⟨h1, h2⟩ := h.rel _ _ e
    apply hab
    have : a - b = (k - 1) * b - (k * b - a) := by ring
    rw [this]
    exact dvd_sub (h1.mul_right _) h2
  refine ⟨key a b hab, key b a fun hd => hab ?_⟩
  rw [← dvd_neg]; simpa using hd

theorem Indep.tors (h : Indep d N P M) (a b : Int) : N • (a • P + b • M) = 0 := by
  have e : N • (a • P + b • M) = a • (N • P) + b • (N • M) := by
    rw [← natCast_zsmul, ← natCast_zsmul, ← natCast_zsmul]; module
  rw [e, h.tl, h.tr, zsmul_zero, zsmul_zero, add_zero]

/-- Additivity in the second argument, on a basis. -/
theorem Indep.we_add (h : Indep d N P M) (hN : 1 ≤ N) {a b a' b' : Int} (h1 : ¬(d : Int) ∣ a)
    (h2 : ¬(d : Int) ∣ a') (h3 : ¬(d : Int) ∣ a + a') :
    we N M ((a + a') • P + (b + b') • M) = we N M (a • P + b • M) * we N M (a' • P + b' • M) := by
  have e : (a + a') • P + (b + b') • M = (a • P + b • M) + (a' • P + b' • M) := by module
  rw [e]
  refine Festa.we_add hN (h.nd1 h1) (h.nd1 h2) ?_ h.tr (h.tors _ _) (h.tors _ _)
  rw [← e]; exact h.nd1 h3

theorem not_dvd_lt {d a : Nat} (h1 : 1 ≤ a) (h2 : a < d) : ¬(d : Int) ∣ a := by
  intro h
  have := Nat.le_of_dvd h1 (Int.natCast_dvd_natCast.mp h)
  omega

/-- The pairing on a basis, up to the character of the second coordinate. -/
theorem Indep.we_form (h : Indep d N P M) (hN : 1 ≤ N) (hd : 3 ≤ d) (a b : Nat) (ha : 1 ≤ a) (haN : a < d) :
    we N M ((a : Int) • P + (b : Int) • M) =
      we N M P ^ a * (we N M (P + M) / we N M P) ^ b := by
  have h1N : ¬(d : Int) ∣ 1 := by exact_mod_cast not_dvd_lt (a := 1) le_rfl (by omega)
  have h2N : ¬(d : Int) ∣ 1 + 1 := by exact_mod_cast not_dvd_lt (a := 2) (by omega) (by omega)
  have e10 : (1 : Int) • P + (0 : Int) • M = P := by module
  have e11 : (1 : Int) • P + (1 : Int) • M = P + M := by module
  have hu : we N M P ≠ 0 := by
    have := we_ne (n := N) (by omega) (h.nd1 (b := 0) h1N)
    rwa [e10] at this
  induction a, ha using Nat.le_induction with
  | base =>
    induction b with
    | zero => simp
    | succ b ih =>
      have q1 := h.we_add (b := b + 1) (b' := 0) (by omega) h1N h1N h2N
      have q2 := h.we_add (b := b) (b' := 1) (by omega) h1N h1N h2N
      rw [add_zero, q2, e10, e11] at q1
      push_cast at ih ⊢
      rw [ih] at q1
      apply mul_right_cancel₀ hu
      rw [← q1, pow_succ (_ / _) b]
      field_simp
  | succ a ha ih =>
    have q := h.we_add (a := a) (a' := 1) (b := b) (b' := 0) (by omega) (not_dvd_lt ha (by omega)) h1N
      (by exact_mod_cast not_dvd_lt (a := a + 1) (by omega) haN)
    rw [e10, add_zero, ih (by omega)] at q
    push_cast
    rw [q, pow_succ]; ring

/-- The character of the second coordinate has values `±1`. -/
theorem Indep.we_sq (h : Indep d N P M) (hN : 1 ≤ N) (hd : 4 ≤ d) :
    (we N M (P + M) / we N M P) ^ 2 = 1 := by
  have hs := h.symm
  have h1 : ¬(d : Int) ∣ 1 := by exact_mod_cast not_dvd_lt (a := 1) le_rfl (by omega)
  have h2 : ¬(d : Int) ∣ 2 := by exact_mod_cast not_dvd_lt (a := 2) (by omega) (by omega)
  have h3 : ¬(d : Int) ∣ 3 := by exact_mod_cast not_dvd_lt (a := 3) (by omega) (by omega)
  have n1 : ∀ x : Int, ND M (P + x • M) := fun x => by
    have := h.nd1 (b := x) h1; rwa [one_zsmul] at this
  have n2 : ∀ x : Int, ¬(d : Int) ∣ x → ND P (P + x • M) := fun x hx => by
    have := hs.nd1 (b := 1) hx; rwa [one_zsmul, add_comm] at this
  have n3 : ∀ x : Int, x ≠ 0 → ¬(d : Int) ∣ x → ND (P + (1 + x) • M) (P + M) := fun x _ hx => by
    have := h.nd2 (a := 1 + x) (b := 1) (by simpa using hx); rwa [one_zsmul] at this
  have t : ∀ x : Int, N • (P + x • M) = 0 := fun x => by
    have := h.tors 1 x; rwa [one_zsmul] at this
  have f1 : ∀ b : Nat, we N M (P + (b : Int) • M) =
      we N M P * (we N M (P + M) / we N M P) ^ b := fun b => by
    have := h.we_form hN (by omega) 1 b le_rfl (by omega)
    simpa using this
  have f2 : ∀ a : Nat, 1 ≤ a → a < d → we N P (P + (a : Int) • M) =
      we N P M ^ a * (we N P (M + P) / we N P M) := fun a h1 h2 => by
    have := hs.we_form hN (by omega) a 1 h1 h2
    rw [add_comm] at this
    simpa using this
  have u0 : we N M P ≠ 0 := we_ne (by omega) (by simpa using n1 0)
  have v0 : we N P M ≠ 0 := we_ne (by omega) (by simpa using (n1 0).symm)
  have w0 : we N P (M + P) ≠ 0 := we_ne (by omega) (by simpa [add_comm] using n2 1 h1)
  have x0 : we N M (P + M) ≠ 0 := we_ne (by omega) (by simpa using n1 1)
  have vu : we N P M * we N M P = 1 := we_symm (by omega) (by simpa using (n1 0).symm)
  -- e(P + 3M, P + M) by additivity of the second argument
  have q1 := Festa.we_add (n := N) (P := P + (3 : Int) • M) (Q := P) (R := M) (by omega)
    (n2 3 h3).symm (n1 3).symm (n3 2 (by norm_num) h2) (t 3) h.tl h.tr
  have s1 := we_symm (n := N) (by omega) (n2 3 h3)
  have s2 := we_symm (n := N) (by omega) (n1 3)
  have s3 := we_symm (n := N) (by omega) (n3 2 (by norm_num) h2)
  -- e(P + M, P + 3M) by additivity of the second argument
  have e3 : P + (2 : Int) • M + M = P + (3 : Int) • M := by module
  have n12 : ND (P + M) (P + (2 : Int) • M) := (n3 1 (by norm_num) h1).symm
  have n13 : ND (P + M) (P + (3 : Int) • M) := (n3 2 (by norm_num) h2).symm
  have nM : ND (P + M) M := by simpa using (n1 1).symm
  have q2 := Festa.we_add (n := N) (P := P + M) (Q := P + (2 : Int) • M) (R := M) (by omega)
    n12 nM (by rw [e3]; exact n13) (by simpa using t 1) (t 2) h.tr
  rw [e3] at q2
  have q3 := Festa.we_add (n := N) (P := P + (2 : Int) • M) (Q := P) (R := M) (by omega)
    (n2 2 h2).symm (n1 2).symm n12.symm (t 2) h.tl h.tr
  have s4 := we_symm (n := N) (by omega) n12
  have s5 := we_symm (n := N) (by omega) nM
  have s6 := we_symm (n := N) (by omega) (n2 2 h2)
  have s7 := we_symm (n := N) (by omega) (n1 2)
  have g1 := f1 3
  have g2 := f1 2
  have g3 := f2 3 (by omega) (by omega)
  have g4 := f2 2 (by omega) (by omega)
  push_cast at g1 g2 g3 g4
  have l1 : (1 + 2 : Int) = 3 := rfl
  rw [l1] at s3
  obtain ⟨c, hc⟩ : ∃ c, c = we N M (P + M) / we N M P := ⟨_, rfl⟩
  have hc' : we N M (P + M) = we N M P * c := by rw [hc]; field_simp
  rw [← hc] at g1 g2 ⊢
  rw [hc'] at s5
  have c0 : c ≠ 0 := by rw [hc]; exact div_ne_zero x0 u0
  rw [g3] at s1
  rw [g4] at s6
  rw [g1] at s2
  rw [g2] at s7
  generalize we N P (M + P) / we N P M = psi at *
  generalize we N (P + (3 : Int) • M) P = a1 at *
  generalize we N (P + (3 : Int) • M) M = a2 at *
  generalize we N (P + (3 : Int) • M) (P + M) = a3 at *
  generalize we N (P + M) (P + (3 : Int) • M) = a4 at *
  generalize we N (P + (2 : Int) • M) P = a5 at *
  generalize we N (P + (2 : Int) • M) M = a6 at *
  generalize we N (P + M) (P + (2 : Int) • M) = a7 at *
  generalize we N (P + (2 : Int) • M) (P + M) = a8 at *
  generalize we N (P + M) M = a9 at *
  generalize we N M P = u at *
  generalize we N P M = v at *
  clear f1 f2 g1 g2 g3 g4 n1 n2 n3 t hc hc' w0 x0
  subst q1 q2 q3
  -- s1 : v^3 psi a1 = 1, s2 : u c^3 a2 = 1, s3 : a1 a2 (a7 a9) = 1,
  -- s4 : a7 (a5 a6) = 1, s5 : a9 (u c) = 1, s6 : v^2 psi a5 = 1, s7 : u c^2 a6 = 1
  have k0 : a7 = v ^ 2 * psi * (u * c ^ 2) := by
    linear_combination (-a7) * s6 - a7 * (v ^ 2 * psi * a5) * s7 + v ^ 2 * psi * (u * c ^ 2) * s4
  have k1 : a1 * a2 * v ^ 2 * psi * c = 1 := by
    rw [k0] at s3
    linear_combination s3 - a1 * a2 * v ^ 2 * psi * c * s5
  have k2 : a1 * a2 * v ^ 2 * psi * c ^ 3 = 1 := by
    linear_combination s1 + v ^ 3 * psi * a1 * s2 - a1 * a2 * v ^ 2 * psi * c ^ 3 * vu
  linear_combination k2 - c ^ 2 * k1

/-- With halves of the basis at hand the pairing is alternating. -/
theorem we_halves {m n : Nat} {P' M : MPoint A} (hm : 2 ≤ m) (hn : 1 ≤ n) (h : Indep (2 * m) (2 * n) P' M) (a b : Nat)
    (ha : 1 ≤ a) (han : a < m) :
    we n (M + M) (a • (P' + P') + b • (M + M)) = we n (M + M) (P' + P') ^ a := by
  have key : ∀ a b : Nat, 1 ≤ a → a < m →
      we n (M + M) (a • (P' + P') + b • (M + M)) = we (2 * n) M P' ^ (2 * a) := by
    intro a b ha han
    have e : a • (P' + P') + b • (M + M) =
        ((2 * a : Nat) : Int) • P' + ((2 * b : Nat) : Int) • M := by
      rw [natCast_zsmul, natCast_zsmul, mul_nsmul', mul_nsmul', two_nsmul, two_nsmul, ← nsmul_add,
        ← nsmul_add]
    have f := h.we_form (by omega) (by omega) (2 * a) (2 * b) (by omega) (by omega)
    have g := h.we_sq (by omega) (by omega)
    rw [pow_mul (we (2 * n) M (P' + M) / _), g, one_pow, mul_one] at f
    rw [← f, e]
    have hd : ¬((2 * m : Nat) : Int) ∣ ((2 * a : Nat) : Int) := not_dvd_lt (by omega) (by omega)
    refine (we_double (by omega) (h.nd1 hd) ?_ ?_).symm
    · refine ⟨?_, ?_⟩
      · intro hm
        obtain ⟨k, hk⟩ := AddSubgroup.mem_zmultiples_iff.mp hm
        have e2 : (k * (2 * a : Nat)) • P' + (k * (2 * b : Nat) - 2) • M = 0 := by
          have : k • (((2 * a : Nat) : Int) • P' + ((2 * b : Nat) : Int) • M) - (M + M) = 0 :=
            sub_eq_zero.mpr hk
          rw [← this]; module
        obtain ⟨h1, h2⟩ := h.rel _ _ e2
        apply hd
        have e3 : ((2 * a : Nat) : Int) = (k * (2 * a : Nat)) * b - a * (k * (2 * b : Nat) - 2) := by
          push_cast; ring
        rw [e3]
        exact dvd_sub (h1.mul_right _) (h2.mul_left _)
      · intro hm
        obtain ⟨k, hk⟩ := AddSubgroup.mem_zmultiples_iff.mp hm
        have e2 : ((2 * a : Nat) : Int) • P' + (((2 * b : Nat) : Int) - 2 * k) • M = 0 := by
          have : ((2 * a : Nat) : Int) • P' + ((2 * b : Nat) : Int) • M - k • (M + M) = 0 :=
            sub_eq_zero.mpr hk.symm
          rw [← this]; module
        exact hd (h.rel _ _ e2).1
    · have := h.tors a b
      rw [← this, ← natCast_zsmul, ← natCast_zsmul]; push_cast; module
  have k1 := key a b ha han
  have k2 := key 1 0 le_rfl (by omega)
  rw [one_nsmul, zero_nsmul, add_zero] at k2
  rw [k1, k2, ← pow_mul, mul_one]

theorem we_pow_halves {m n : Nat} {P' M : MPoint A} (hm : 2 ≤ m) (hn : 1 ≤ n) (h : Indep (2 * m) (2 * n) P' M)
    (t : m • (P' + P') = 0) : we n (M + M) (P' + P') ^ m = 1 := by
  have h1 := we_halves hm hn h (m - 1) 0 (by omega) (by omega)
  have t0 : n • (P' + P') = 0 := by
    rw [← two_nsmul, ← mul_nsmul']
    have := h.tl
    rwa [mul_comm] at this
  have t' : n • (M + M) = 0 := by
    rw [← two_nsmul, ← mul_nsmul']
    have := h.tr
    rwa [mul_comm] at this
  have e : (m - 1) • (P' + P') = -(P' + P') := by
    rw [eq_neg_iff_add_eq_zero, ← succ_nsmul, Nat.sub_add_cancel (by omega), t]
  rw [zero_nsmul, add_zero, e] at h1
  have hd : ¬((2 * m : Nat) : Int) ∣ 2 := by exact_mod_cast not_dvd_lt (a := 2) (by omega) (by omega)
  have nd : ND (M + M) (P' + P') := by
    refine ⟨?_, ?_⟩
    · intro hm
      obtain ⟨k, hk⟩ := AddSubgroup.mem_zmultiples_iff.mp hm
      have e2 : (2 * k) • P' + (-2 : Int) • M = 0 := by
        have : k • (P' + P') - (M + M) = 0 := sub_eq_zero.mpr hk
        rw [← this]; module
      exact hd (by simpa using (h.rel _ _ e2).2)
    · intro hm
      obtain ⟨k, hk⟩ := AddSubgroup.mem_zmultiples_iff.mp hm
      have e2 : (-2 : Int) • P' + (2 * k) • M = 0 := by
        have : k • (M + M) - (P' + P') = 0 := sub_eq_zero.mpr hk
        rw [← this]; module
      exact hd (by simpa using (h.rel _ _ e2).1)
  have h2 := we_neg (n := n) (by omega) nd t' t0
  rw [h1, ← pow_succ'] at h2
  rwa [Nat.sub_add_cancel (by omega)] at h2

end

/-! ### Halving over an algebraically closed field -/

section
variable {L : Type*} [Field L] [DecidableEq L] [IsAlgClosed L] {B : L}
open Polynomial

theorem exists_half (h2 : (2 : L) ≠ 0) (hB : B * B ≠ 4) (Q : MPoint B) : ∃ M : MPoint B, M + M = Q := by
  rcases Q with _ | ⟨x0, y0, h0⟩
  · exact ⟨0, add_zero _⟩
  have h4 : (4 : L) ≠ 0 := by
    have : (4 : L) = 2 * 2 := by norm_num
    rw [this]; exact mul_ne_zero h2 h2
  have hE : (⟨B, (B + 2) / 4⟩ : Crv L).Good := ⟨h2, hB, by field_simp⟩
  obtain ⟨x, hx⟩ := IsAlgClosed.exists_root
    (C 1 * X ^ 4 + C (-4 * x0) * X ^ 3 + C (-2 - 4 * x0 * B) * X ^ 2 + C (-4 * x0) * X + C 1 : L[X])
    (by
      intro h
      have : (C 1 * X ^ 4 + C (-4 * x0) * X ^ 3 + C (-2 - 4 * x0 * B) * X ^ 2 + C (-4 * x0) * X +
        C 1 : L[X]).degree = 4 := by compute_degree!
      rw [this] at h
      exact absurd h (by norm_num))
  simp only [IsRoot, eval_add, eval_mul, eval_C, eval_pow, eval_X] at hx
  obtain ⟨y, hy⟩ := IsAlgClosed.exists_pow_nat_eq (x * x * x + B * x * x + x) (n := 2) (by norm_num)
  have hc : y * y = x * x * x + B * x * x + x := by rw [← hy]; ring
  have hq : (x * x - 1) * (x * x - 1) = x0 * (4 * (y * y)) := by
    rw [hc]; linear_combination hx
  have hns := nonsing_of h2 hB hc
  have hy0 : y ≠ 0 := by
    rintro rfl
    have := x_sq_ne_one (E := ⟨B, (B + 2) / 4⟩) hE hns
    apply mul_ne_zero this this
    rw [hq]; ring
  obtain ⟨x', y', h', e, e1, -⟩ := two_mul_pt (E := ⟨B, (B + 2) / 4⟩) hE hns hy0
  have : x' = x0 := by
    apply mul_right_cancel₀ (mul_ne_zero h4 (mul_ne_zero hy0 hy0))
    rw [e1, hq]
  subst this
  rcases y_of_x_eq h' h0 with rfl | rfl
  · exact ⟨_, e⟩
  · refine ⟨-(.some x y hns), ?_⟩
    rw [← neg_add]
    change -((Point.some x y hns : MPoint B) + .some x y hns) = _
    rw [show (Point.some x y hns : MPoint B) + .some x y hns = .some x' (-y0) h' from e]
    obtain ⟨h'', e'⟩ := neg_pt h'
    rw [e']
    obtain ⟨h3, e3⟩ := pt_congr (h := h'') rfl (neg_neg y0)
    exact e3

/-- Two independent points of order two. -/
theorem exists_two (h2 : (2 : L) ≠ 0) (hB : B * B ≠ 4) :
    ∃ T1 T2 : MPoint B, ∀ a b : Int, a • T1 + b • T2 = 0 ↔ (2 : Int) ∣ a ∧ (2 : Int) ∣ b := by
  obtain ⟨x, hx⟩ := IsAlgClosed.exists_root (C 1 * X ^ 2 + C B * X + C 1 : L[X]) (by
      intro h
      have : (C 1 * X ^ 2 + C B * X + C 1 : L[X]).degree = 2 := by compute_degree!
      rw [this] at h
      exact absurd h (by norm_num))
  simp only [IsRoot, eval_add, eval_mul, eval_C, eval_pow, eval_X] at hx
  have h0 : (mont B).Nonsingular 0 0 := nonsing_of h2 hB (by ring)
  have h1 : (mont B).Nonsingular x 0 := nonsing_of h2 hB (by linear_combination -x * hx)
  have t1 : (Point.some 0 0 h0 : MPoint B) + .some 0 0 h0 = 0 := add_opp (by simp)
  have t2 : (Point.some x 0 h1 : MPoint B) + .some x 0 h1 = 0 := add_opp (by simp)
  have hne : (Point.some 0 0 h0 : MPoint B) ≠ .some x 0 h1 := by
    intro h
    injection h with h _
    rw [← h] at hx
    norm_num at hx
  have n1 : (Point.some 0 0 h0 : MPoint B) ≠ 0 := Point.some_ne_zero h0
  have n2 : (Point.some x 0 h1 : MPoint B) ≠ 0 := Point.some_ne_zero h1
  generalize (Point.some 0 0 h0 : MPoint B) = T1 at *
  generalize (Point.some x 0 h1 : MPoint B) = T2 at *
  have even : ∀ (T : MPoint B), T + T = 0 → ∀ k : Int, (2 * k) • T = 0 := by
    intro T hT k
    rw [mul_comm, mul_zsmul, two_zsmul, hT, zsmul_zero]
  have odd : ∀ (T : MPoint B), T + T = 0 → ∀ k : Int, (2 * k + 1) • T = T := by
    intro T hT k
    rw [add_zsmul, even T hT, one_zsmul, zero_add]
  refine ⟨T1, T2, fun a b => ?_⟩
  rcases Int.even_or_odd' a with ⟨a', rfl | rfl⟩ <;> rcases Int.even_or_odd' b with ⟨b', rfl | rfl⟩
  · rw [even _ t1, even _ t2]; simp
  · rw [even _ t1, odd _ t2]
    constructor
    · intro h; rw [zero_add] at h; exact absurd h n2
    · rintro ⟨-, h⟩; omega
  · rw [odd _ t1, even _ t2]
    constructor
    · intro h; rw [add_zero] at h; exact absurd h n1
    · rintro ⟨h, -⟩; omega
  · rw [odd _ t1, odd _ t2]
    constructor
    · intro h
      exact absurd (by rw [← add_left_inj T2, h, t2]) hne
    · rintro ⟨h, -⟩; omega

/-- A basis with relations `(m, n)`, `m ∣ n`, has halves that are independent modulo `2 m`. -/
theorem exists_half_basis (h2 : (2 : L) ≠ 0) (hB : B * B ≠ 4) {m n : Nat} {P Q : MPoint B}
    (h : ∀ a b : Int, a • P + b • Q = 0 ↔ (m : Int) ∣ a ∧ (n : Int) ∣ b) (hmn : m ∣ n) (hn : 1 ≤ n) :
    ∃ P' M : MPoint B, P' + P' = P ∧ M + M = Q ∧ Indep (2 * m) (2 * n) P' M := by
  have hP : (m : Int) • P = 0 := by simpa using (h m 0).mpr ⟨dvd_rfl, dvd_zero _⟩
  have hQ : (n : Int) • Q = 0 := by simpa using (h 0 n).mpr ⟨dvd_zero _, dvd_rfl⟩
  have hm : 1 ≤ m := Nat.pos_of_dvd_of_pos hmn hn
  have tors : ∀ T' T : MPoint B, T' + T' = T → (n : Int) • T = 0 → (2 * n) • T' = 0 := by
    rintro T' T rfl hT
    rw [← hT, ← natCast_zsmul]; push_cast; module
  have hP' : (n : Int) • P = 0 := by
    obtain ⟨c, rfl⟩ := hmn
    rw [Nat.cast_mul, mul_comm, mul_zsmul, hP, zsmul_zero]
  have dbl : ∀ P' M : MPoint B, P' + P' = P → M + M = Q → ∀ a b : Int, a • P' + b • M = 0 →
      (m : Int) ∣ a ∧ (n : Int) ∣ b := by
    rintro P' M rfl rfl a b hab
    apply (h a b).mp
    have : a • (P' + P') + b • (M + M) = (2 : Int) • (a • P' + b • M) := by module
    rw [this, hab, zsmul_zero]
  have fin : ∀ a b : Int, ((2 * m : Nat) : Int) ∣ a ∧ ((2 * n : Nat) : Int) ∣ b →
      ((2 * m : Nat) : Int) ∣ a ∧ ((2 * m : Nat) : Int) ∣ b := fun a b hab =>
    ⟨hab.1, (Int.natCast_dvd_natCast.mpr (mul_dvd_mul_left 2 hmn)).trans hab.2⟩
  rcases Nat.even_or_odd' m with ⟨k, hk | hk⟩
  · obtain ⟨P', eP⟩ := exists_half h2 hB P
    obtain ⟨M, eM⟩ := exists_half h2 hB Q
    refine ⟨P', M, eP, eM, ⟨fun a b hab => fin a b ?_, tors _ _ eP hP', tors _ _ eM hQ⟩⟩
    obtain ⟨⟨a', rfl⟩, ⟨b', rfl⟩⟩ := dbl P' M eP eM a b hab
    obtain ⟨c, rfl⟩ := hmn
    have hc : 1 ≤ c := Nat.pos_of_ne_zero (by rintro rfl; simp at hn)
    have e2 : (k * a') • P + (k * c * b') • Q = 0 := by
      rw [← hab, ← eP, ← eM, hk]; push_cast; module
    obtain ⟨h3, h4⟩ := (h _ _).mp e2
    have hk0 : (k : Int) ≠ 0 := by omega
    have hkc : (k * c : Int) ≠ 0 := mul_ne_zero hk0 (by omega)
    subst hk
    obtain ⟨x, hx⟩ := h3
    obtain ⟨y, hy⟩ := h4
    have ea : a' = 2 * x := by
      apply mul_left_cancel₀ hk0; rw [hx]; push_cast; ring
    have eb : b' = 2 * y := by
      apply mul_left_cancel₀ hkc; rw [hy]; push_cast; ring
    refine ⟨⟨x, ?_⟩, ⟨y, ?_⟩⟩
    · rw [ea]; push_cast; ring
    · rw [eb]; push_cast; ring
  · obtain ⟨T1, T2, hT⟩ := exists_two (L := L) h2 hB
    have d1 : T1 + T1 = 0 := by simpa [two_zsmul] using (hT 2 0).mpr ⟨by norm_num, by norm_num⟩
    have d2 : T2 + T2 = 0 := by simpa [two_zsmul] using (hT 0 2).mpr ⟨by norm_num, by norm_num⟩
    have z1 : T1 ≠ 0 := fun e => by
      have := (hT 1 0).mp (by simp [e]); omega
    have z2 : T2 ≠ 0 := fun e => by
      have := (hT 0 1).mp (by simp [e]); omega
    have z3 : T1 ≠ T2 := fun e => by
      have := (hT 1 1).mp (by rw [e, one_zsmul, d2]); omega
    -- a half of `Q` of order `2 n`
    obtain ⟨M, eM, hS⟩ : ∃ M : MPoint B, M + M = Q ∧ (n : Int) • M ≠ 0 := by
      obtain ⟨M, eM⟩ := exists_half h2 hB Q
      rcases Nat.even_or_odd' n with ⟨r, hr | hr⟩
      · refine ⟨M, eM, fun e => ?_⟩
        have e2 : (0 : Int) • P + (r : Int) • Q = 0 := by
          rw [← eM, zero_zsmul, zero_add, ← e, hr]; push_cast; module
        have := Int.le_of_dvd (by omega) ((h _ _).mp e2).2
        omega
      · by_cases e : (n : Int) • M = 0
        · refine ⟨M + T2, ?_, fun e' => z2 ?_⟩
          · rw [add_add_add_comm, d2, add_zero, eM]
          · have : (n : Int) • T2 = T2 := by
              have : (n : Int) • T2 = (r : Int) • (T2 + T2) + T2 := by rw [hr]; push_cast; module
              rw [this, d2, zsmul_zero, zero_add]
            rwa [zsmul_add, e, zero_add, this] at e'
        · exact ⟨M, eM, e⟩
    obtain ⟨S, eS⟩ : ∃ S, S = (n : Int) • M := ⟨_, rfl⟩
    have dS : S + S = 0 := by
      rw [eS, ← zsmul_add, eM, hQ]
    rw [← eS] at hS
    obtain ⟨T, dT, zT, hTS⟩ : ∃ T : MPoint B, T + T = 0 ∧ T ≠ 0 ∧ T ≠ S := by
      by_cases e : T1 = S
      · exact ⟨T2, d2, z2, fun e' => z3 (e.trans e'.symm)⟩
      · exact ⟨T1, d1, z1, e⟩
    have eP : ((k + 1 : Nat) : Int) • P + T + (((k + 1 : Nat) : Int) • P + T) = P := by
      have : ((k + 1 : Nat) : Int) • P + T + (((k + 1 : Nat) : Int) • P + T) =
          (m : Int) • P + P + (T + T) := by rw [hk]; push_cast; module
      rw [this, hP, dT, zero_add, add_zero]
    refine ⟨_, M, eP, eM, ⟨fun a b hab => fin a b ?_, tors _ _ eP hP', tors _ _ eM hQ⟩⟩
    obtain ⟨⟨a', rfl⟩, ⟨b', rfl⟩⟩ := dbl _ M eP eM a b hab
    have e3 : a' • T + b' • S = 0 := by
      have : ((m : Int) * a') • (((k + 1 : Nat) : Int) • P + T) + ((n : Int) * b') • M =
        (a' * (k + 1)) • ((m : Int) • P) + (a' * k) • (T + T) + (a' • T + b' • ((n : Int) • M)) := by
        rw [hk]; push_cast; module
      rw [this, hP, dT, zsmul_zero, zsmul_zero, zero_add, zero_add, ← eS] at hab
      exact hab
    have even : ∀ (T : MPoint B), T + T = 0 → ∀ k : Int, (2 * k) • T = 0 := by
      intro T hT k
      rw [mul_comm, mul_zsmul, two_zsmul, hT, zsmul_zero]
    have odd : ∀ (T : MPoint B), T + T = 0 → ∀ k : Int, (2 * k + 1) • T = T := by
      intro T hT k
      rw [add_zsmul, even T hT, one_zsmul, zero_add]
    rcases Int.even_or_odd' a' with ⟨x, rfl | rfl⟩ <;> rcases Int.even_or_odd' b' with ⟨y, rfl | rfl⟩
    · exact ⟨⟨x, by push_cast; ring⟩, ⟨y, by push_cast; ring⟩⟩
    · rw [even _ dT, odd _ dS, zero_add] at e3
      exact absurd e3 hS
    · rw [odd _ dT, even _ dS, add_zero] at e3
      exact absurd e3 zT
    · rw [odd _ dT, odd _ dS] at e3
      exact absurd (by rw [← add_left_inj S, e3, dS]) hTS

end

/-! ### Base change -/

section
variable {L : Type*} [Field L] [DecidableEq L] (f : K →+* L)

omit [DecidableEq K] [DecidableEq L] in
theorem mont_map : (mont A).map f = mont (f A) := by
  simp [WeierstrassCurve.map, mont]

omit [DecidableEq K] [DecidableEq L] in
theorem nonsing_map {x y : K} (h : (mont A).Nonsingular x y) : (mont (f A)).Nonsingular (f x) (f y) := by
  rw [← mont_map]
  exact (WeierstrassCurve.Affine.map_nonsingular (mont A) f.injective x y).mpr h

/-- The image of a point under a field homomorphism. -/
def mapPt : MPoint A → MPoint (f A)
  | .zero => 0
  | .some _ _ h => .some _ _ (nonsing_map f h)

omit [DecidableEq K] [DecidableEq L] in
theorem mapPt_inj {P Q : MPoint A} (h : mapPt f P = mapPt f Q) : P = Q := by
  rcases P with _ | ⟨x, y, k⟩ <;> rcases Q with _ | ⟨x', y', k'⟩
  · rfl
  · exact absurd h.symm (Point.some_ne_zero _)
  · exact absurd h (Point.some_ne_zero _)
  · injection h with h1 h2
    have e1 := f.injective h1
    have e2 := f.injective h2
    subst e1; subst e2; rfl

theorem slope_map (x1 x2 y1 y2 : K) :
    (mont (f A)).slope (f x1) (f x2) (f y1) (f y2) = f ((mont A).slope x1 x2 y1 y2) := by
  rw [← mont_map]; exact WeierstrassCurve.Affine.map_slope ..

theorem mapPt_add (P Q : MPoint A) : mapPt f (P + Q) = mapPt f P + mapPt f Q := by
  rcases P with _ | ⟨x1, y1, k1⟩
  · change mapPt f (0 + Q) = 0 + mapPt f Q
    rw [zero_add, zero_add]
  rcases Q with _ | ⟨x2, y2, k2⟩
  · change mapPt f (.some x1 y1 k1 + 0) = mapPt f (.some x1 y1 k1) + 0
    rw [add_zero, add_zero]
  change _ = (Point.some (f x1) (f y1) (nonsing_map f k1) : MPoint (f A)) +
    .some (f x2) (f y2) (nonsing_map f k2)
  by_cases hxy : x1 = x2 ∧ y1 = (mont A).negY x2 y2
  · rw [Point.add_of_Y_eq hxy.1 hxy.2, Point.add_of_Y_eq (congrArg f hxy.1)
      (by rw [hxy.2, negY_mont, negY_mont, map_neg])]
    rfl
  · have hxy' : ¬(f x1 = f x2 ∧ f y1 = (mont (f A)).negY (f x2) (f y2)) := by
      rintro ⟨h1, h2⟩
      rw [negY_mont, ← map_neg] at h2
      exact hxy ⟨f.injective h1, by rw [negY_mont]; exact f.injective h2⟩
    rw [Point.add_some hxy, Point.add_some hxy']
    have e1 : f ((mont A).addX x1 x2 ((mont A).slope x1 x2 y1 y2)) =
        (mont (f A)).addX (f x1) (f x2) ((mont (f A)).slope (f x1) (f x2) (f y1) (f y2)) := by
      rw [slope_map]
      simp [WeierstrassCurve.Affine.addX, mont]
    have e2 : f ((mont A).addY x1 x2 y1 ((mont A).slope x1 x2 y1 y2)) =
        (mont (f A)).addY (f x1) (f x2) (f y1)
          ((mont (f A)).slope (f x1) (f x2) (f y1) (f y2)) := by
      rw [slope_map]
      simp [WeierstrassCurve.Affine.addY, WeierstrassCurve.Affine.negAddY,
        WeierstrassCurve.Affine.addX, WeierstrassCurve.Affine.negY, mont]
    obtain ⟨h, e⟩ := pt_congr (h := nonsing_map f (nonsingular_add k1 k2 hxy)) e1 e2
    exact e

/-- Base change as a homomorphism. -/
def mapHom : MPoint A →+ MPoint (f A) where
  toFun := mapPt f
  map_zero' := rfl
  map_add' := mapPt_add f

theorem mapHom_basis {m n : Nat} {P Q : MPoint A}
    (h : ∀ a b : Int, a • P + b • Q = 0 ↔ (m : Int) ∣ a ∧ (n : Int) ∣ b) (a b : Int) :
    a • mapHom f P + b • mapHom f Q = 0 ↔ (m : Int) ∣ a ∧ (n : Int) ∣ b := by
  rw [← h a b, ← map_zsmul, ← map_zsmul, ← map_add]
  constructor
  · intro e; exact mapPt_inj f e
  · intro e; rw [e, map_zero]

omit [DecidableEq K] [DecidableEq L] in
theorem evalPt_map_den (X S : MPoint A) :
    evalPt (mapPt f X) (denC (mapPt f S)) = f (evalPt X (denC S)) := by
  rcases X with _ | ⟨x, y, h⟩
  · exact (map_zero f).symm
  · rcases S with _ | ⟨x', y', h'⟩
    · have e1 : evalPt (.some x y h) (denC (Point.zero : MPoint A)) = 1 := evalPt_one h
      have e2 : evalPt (mapPt f (.some x y h)) (denC (mapPt f (Point.zero : MPoint A))) = 1 :=
        evalPt_one (nonsing_map f h)
      rw [e1, e2, map_one]
    · have e2 : evalPt (mapPt f (.some x y h)) (denC (mapPt f (.some x' y' h'))) = f x - f x' :=
        evalPt_X (nonsing_map f h) _
      rw [e2, evalPt_den, map_sub]

theorem evalPt_map_num (X V W : MPoint A) :
    evalPt (mapPt f X) (numC (mapPt f V) (mapPt f W)) = f (evalPt X (numC V W)) := by
  rcases V with _ | ⟨x1, y1, k1⟩
  · exact evalPt_map_den f X W
  rcases W with _ | ⟨x2, y2, k2⟩
  · exact evalPt_map_den f X (.some x1 y1 k1)
  rcases X with _ | ⟨x, y, h⟩
  · exact (map_zero f).symm
  by_cases hxy : x1 = x2 ∧ y1 = (mont A).negY x2 y2
  · have e1 : numC (Point.some x1 y1 k1 : MPoint A) (.some x2 y2 k2) = WeierstrassCurve.Affine.CoordinateRing.XClass (mont A) x1 :=
      if_pos hxy
    have e2 : numC (mapPt f (Point.some x1 y1 k1 : MPoint A)) (mapPt f (.some x2 y2 k2)) =
        WeierstrassCurve.Affine.CoordinateRing.XClass (mont (f A)) (f x1) :=
      if_pos ⟨congrArg f hxy.1, by rw [hxy.2, negY_mont, negY_mont, map_neg]⟩
    rw [e1, e2, evalPt_X]
    exact (evalPt_X (nonsing_map f h) _).trans (map_sub f _ _).symm
  · have hxy' : ¬(f x1 = f x2 ∧ f y1 = (mont (f A)).negY (f x2) (f y2)) := by
      rintro ⟨h1, h2⟩
      rw [negY_mont, ← map_neg] at h2
      exact hxy ⟨f.injective h1, by rw [negY_mont]; exact f.injective h2⟩
    have e1 : numC (Point.some x1 y1 k1 : MPoint A) (.some x2 y2 k2) =
        WeierstrassCurve.Affine.CoordinateRing.YClass (mont A)
          (linePolynomial x1 y1 ((mont A).slope x1 x2 y1 y2)) := if_neg hxy
    have e2 : numC (mapPt f (Point.some x1 y1 k1 : MPoint A)) (mapPt f (.some x2 y2 k2)) =
        WeierstrassCurve.Affine.CoordinateRing.YClass (mont (f A)) (linePolynomial (f x1) (f y1)
          ((mont (f A)).slope (f x1) (f x2) (f y1) (f y2))) := if_neg hxy'
    rw [e1, e2, evalPt_Y]
    refine (evalPt_Y (nonsing_map f h) _ _ _).trans ?_
    rw [slope_map]; simp

theorem gv_map (V W X : MPoint A) : gv (mapHom f V) (mapHom f W) (mapHom f X) = f (gv V W X) := by
  unfold gv
  rw [← map_add (mapHom f), map_div₀]
  congr 1
  · exact evalPt_map_num f X V W
  · exact evalPt_map_den f X (V + W)

theorem mil_map (P X : MPoint A) (n : Nat) (hn : 1 ≤ n) :
    mil (mapHom f P) (mapHom f X) n = f (mil P X n) := by
  refine chain_induction (p := fun n => mil (mapHom f P) (mapHom f X) n = f (mil P X n))
    ?_ ?_ ?_ n hn
  · rw [mil_one, mil_one, map_one]
  · intro k hk ih
    rw [mil_even _ _ hk, mil_even _ _ hk, ih, ← map_nsmul, gv_map, map_mul, map_mul]
  · intro k hk ih
    rw [mil_odd _ _ hk, mil_odd _ _ hk, ih, ← map_nsmul, gv_map, map_mul]

theorem we_map (P Q : MPoint A) (n : Nat) (hn : 1 ≤ n) :
    we n (mapHom f P) (mapHom f Q) = f (we n P Q) := by
  unfold we
  rw [mil_map f _ _ n hn, mil_map f _ _ n hn, map_div₀, map_mul, map_pow, map_neg, map_one]

end

/-! ### The pairing on a basis -/

/-- The pairing of a point `Q` of order `n` with a combination of `P` and `Q`, where `P` has order
`m ∣ n` and is independent of `Q`. -/
theorem we_eq2 {m n : Nat} {P Q : MPoint A} (h2 : (2 : K) ≠ 0) (hA : A * A ≠ 4) (hm : 2 ≤ m)
    (hmn : m ∣ n) (hn : 1 ≤ n)
    (h : ∀ a b : Int, a • P + b • Q = 0 ↔ (m : Int) ∣ a ∧ (n : Int) ∣ b) (a b : Nat) (ha : 1 ≤ a)
    (ham : a < m) : we n Q (a • P + b • Q) = we n Q P ^ a ∧ we n Q P ^ m = 1 := by
  classical
  let f : K →+* AlgebraicClosure K := algebraMap K (AlgebraicClosure K)
  have h2' : (2 : AlgebraicClosure K) ≠ 0 := by
    intro h; apply h2; apply f.injective; rw [map_zero, map_ofNat]; exact h
  have hA' : f A * f A ≠ 4 := by
    intro h; apply hA; apply f.injective; rw [map_mul, map_ofNat]; exact h
  obtain ⟨P', M, e1, e2, hb⟩ := exists_half_basis h2' hA' (mapHom_basis f h) hmn hn
  have tP : m • P = 0 := by
    have := (h m 0).mpr ⟨dvd_rfl, dvd_zero _⟩
    simpa using this
  have r1 := we_halves hm hn hb a b ha ham
  have r2 := we_pow_halves hm hn hb (by rw [e1, ← map_nsmul, tP, map_zero])
  rw [e1, e2] at r1 r2
  rw [← map_nsmul, ← map_nsmul, ← map_add, we_map f _ _ n (by omega), we_map f _ _ n (by omega),
    ← map_pow] at r1
  rw [we_map f _ _ n (by omega), ← map_pow] at r2
  exact ⟨f.injective r1, f.injective (by rw [r2, map_one])⟩

/-- The pairing of a basis point with a combination of the basis depends on one coordinate only. -/
theorem IsBasis.we_eq {n : Nat} {P Q : MPoint A} (h2 : (2 : K) ≠ 0) (hA : A * A ≠ 4) (hn : 2 ≤ n)
    (h : IsBasis n P Q) (a b : Nat) (ha : 1 ≤ a) (han : a < n) :
    we n Q (a • P + b • Q) = we n Q P ^ a ∧ we n Q P ^ n = 1 :=
  we_eq2 h2 hA hn dvd_rfl (by omega) h a b ha han

theorem IsBasis.indep {H : Type*} [AddCommGroup H] {n : Nat} {P Q : H} (h : IsBasis n P Q) :
    Indep n n P Q := ⟨fun a b => (h a b).mp, h.nsmul_left, h.nsmul_right⟩

/-- If `P ∉ ⟨Q⟩`, `Q` has order `n`, `n P = 0` and `P`, `Q` are not a basis, then the pairing is killed
by a proper divisor of `n`. -/
theorem we_of_not_basis {n : Nat} {P Q : MPoint A} (h2 : (2 : K) ≠ 0) (hA : A * A ≠ 4) (hn : 1 ≤ n)
    (hP : n • P = 0) (hQ : addOrderOf Q = n) (hPQ : P ∉ AddSubgroup.zmultiples Q)
    (hb : ¬IsBasis n P Q) : ∃ m, m ∣ n ∧ m ≠ n ∧ we n Q P ^ m = 1 := by
  classical
  have hex : ∃ m, 1 ≤ m ∧ m • P ∈ AddSubgroup.zmultiples Q := ⟨n, hn, by rw [hP]; exact zero_mem _⟩
  obtain ⟨m, ⟨hm1, hm2⟩, hmin⟩ : ∃ m, (1 ≤ m ∧ m • P ∈ AddSubgroup.zmultiples Q) ∧
      ∀ k, 1 ≤ k → k < m → k • P ∉ AddSubgroup.zmultiples Q :=
    ⟨Nat.find hex, Nat.find_spec hex, fun k h1 h2 h3 => Nat.find_min hex h2 ⟨h1, h3⟩⟩
  have hdvd : ∀ a : Int, a • P ∈ AddSubgroup.zmultiples Q → (m : Int) ∣ a := by
    intro a ha
    have hr : (a % m) • P ∈ AddSubgroup.zmultiples Q := by
      have e : (a % m) • P = a • P - (a / m) • (m • P) := by
        have := Int.emod_add_mul_ediv a m
        rw [← natCast_zsmul P m, ← mul_zsmul, eq_sub_iff_add_eq, ← add_zsmul]
        congr 1
        rw [mul_comm]; omega
      rw [e]
      exact sub_mem ha (AddSubgroup.zsmul_mem _ hm2 _)
    by_contra hnd
    have h1 : 0 ≤ a % m := Int.emod_nonneg _ (by omega)
    have h2 : a % m < m := Int.emod_lt_of_pos _ (by omega)
    have h3 : a % m ≠ 0 := fun h => hnd (Int.dvd_of_emod_eq_zero h)
    obtain ⟨k, hk⟩ := Int.eq_ofNat_of_zero_le h1
    rw [hk] at hr h2 h3
    rw [natCast_zsmul] at hr
    exact hmin k (by omega) (by omega) hr
  have hmn : m ∣ n := by
    have := hdvd n (by rw [natCast_zsmul, hP]; exact zero_mem _)
    exact Int.natCast_dvd_natCast.mp this
  obtain ⟨c, hc⟩ := AddSubgroup.mem_zmultiples_iff.mp hm2
  obtain ⟨r, hr⟩ := hmn
  have hr1 : 1 ≤ r := Nat.pos_of_ne_zero (by rintro rfl; simp at hr; omega)
  have ordQ : ∀ b : Int, b • Q = 0 ↔ (n : Int) ∣ b := by
    intro b; rw [← hQ]; exact (addOrderOf_dvd_iff_zsmul_eq_zero).symm
  have hmc : (m : Int) ∣ c := by
    have : (r * c : Int) • Q = 0 := by
      rw [mul_zsmul, hc, natCast_zsmul, ← mul_nsmul', mul_comm, ← hr, hP]
    rw [ordQ, hr, Nat.cast_mul, mul_comm] at this
    exact (mul_dvd_mul_iff_left (by omega)).mp this
  obtain ⟨k, rfl⟩ := hmc
  -- T = P - k Q
  have hrel : ∀ a b : Int, a • (P - k • Q) + b • Q = 0 ↔ (m : Int) ∣ a ∧ (n : Int) ∣ b := by
    have hT : (m : Int) • (P - k • Q) = 0 := by
      rw [zsmul_sub, ← mul_zsmul, hc, natCast_zsmul, sub_self]
    intro a b
    constructor
    · intro h
      have ha : (m : Int) ∣ a := by
        apply hdvd
        rw [AddSubgroup.mem_zmultiples_iff]
        refine ⟨a * k - b, ?_⟩
        rw [← sub_eq_zero, ← neg_eq_zero, ← h]; module
      refine ⟨ha, ?_⟩
      obtain ⟨a', rfl⟩ := ha
      rw [mul_comm, mul_zsmul, hT, zsmul_zero, zero_add] at h
      exact (ordQ b).mp h
    · rintro ⟨⟨a', rfl⟩, hb⟩
      rw [mul_comm, mul_zsmul, hT, zsmul_zero, zero_add]
      exact (ordQ b).mpr hb
  have hm2 : 2 ≤ m := by
    rcases Nat.lt_or_ge m 2 with h | h
    · exfalso
      have : m = 1 := by omega
      subst this
      rw [one_nsmul] at hm2
      exact hPQ hm2
    · exact h
  refine ⟨m, ⟨r, hr⟩, ?_, ?_⟩
  · rintro rfl
    apply hb
    intro a b
    have := hrel a (b + a * k)
    rw [show a • (P - k • Q) + (b + a * k) • Q = a • P + b • Q by module] at this
    rw [this]
    constructor
    · rintro ⟨h1, h2⟩; exact ⟨h1, by simpa using dvd_sub h2 (h1.mul_right k)⟩
    · rintro ⟨h1, h2⟩; exact ⟨h1, dvd_add h2 (h1.mul_right k)⟩
  · have hk : (k % n).toNat • Q = k • Q := by
      rw [← natCast_zsmul, Int.toNat_of_nonneg (Int.emod_nonneg _ (by omega)), ← sub_eq_zero,
        sub_eq_add_neg, ← neg_zsmul, ← add_zsmul, ordQ]
      exact ⟨-(k / n), by have := Int.emod_add_mul_ediv k n; linarith⟩
    have e1 := we_eq2 h2 hA hm2 ⟨r, hr⟩ hn hrel 1 (k % n).toNat le_rfl (by omega)
    rw [hk, one_nsmul, pow_one, sub_add_cancel] at e1
    rw [e1.1, e1.2]

end Festa
