import Verif.Lemmas.Entangled
/-! Divisibility by two on a Montgomery curve, and bases from points outside `2E`. -/
namespace Festa
open WeierstrassCurve.Affine

section
variable {K : Type*} [Field K] [DecidableEq K] {E : Crv K}

/-- `x(2R) - e` is a square for every abscissa `e` of a point of order two. -/
theorem double_x_sq (hE : E.Good) {R : MPoint E.A} {x y e : K} {h : (mont E.A).Nonsingular x y}
    (hR : R + R = .some x y h) (he : e * (e * e + E.A * e + 1) = 0) : IsSquare (x - e) := by
  rcases R with _ | ⟨a, b, hab⟩
  · exact absurd hR (by
      intro h0
      have : (0 : MPoint E.A) + 0 = .some x y h := h0
      rw [add_zero] at this
      cases this)
  · have hc := curve_eq hab
    by_cases hb : b = 0
    · rw [add_opp (by rw [hb, neg_zero])] at hR
      cases hR
    · have h2b : 2 * b ≠ 0 := mul_ne_zero hE.two hb
      have hl : (3 * a * a + 2 * E.A * a + 1) / (2 * b) * (2 * b) = 3 * a * a + 2 * E.A * a + 1 :=
        div_mul_cancel₀ _ h2b
      generalize (3 * a * a + 2 * E.A * a + 1) / (2 * b) = l at hl
      obtain ⟨h3, e3⟩ := add_dbl (h := hab) (h' := hab) hE.two hb hl
      rw [e3] at hR
      cases hR
      refine ⟨((a - e) * (a - e) - (3 * e * e + 2 * E.A * e + 1)) / (2 * b), ?_⟩
      rw [div_mul_div_comm, eq_div_iff (mul_ne_zero h2b h2b)]
      have : (l * (2 * b)) * (l * (2 * b)) =
          (3 * a * a + 2 * E.A * a + 1) * (3 * a * a + 2 * E.A * a + 1) := by rw [hl]
      linear_combination this + (-8 * a - 4 * E.A - 4 * e) * hc +
        (-8 * a - 4 * E.A - 4 * e) * he

/-- `(x₁ - e)(x₂ - e)(x₃ - e)` is a square. -/
theorem add_x_sq {x1 y1 x2 y2 x3 y3 e : K} {h1 : (mont E.A).Nonsingular x1 y1}
    {h2 : (mont E.A).Nonsingular x2 y2} {h3 : (mont E.A).Nonsingular x3 y3} (hx : x1 ≠ x2)
    (h : (.some x1 y1 h1 + .some x2 y2 h2 : MPoint E.A) = .some x3 y3 h3)
    (he : e * (e * e + E.A * e + 1) = 0) : IsSquare ((x1 - e) * (x2 - e) * (x3 - e)) := by
  have hx' : x2 - x1 ≠ 0 := sub_ne_zero.mpr hx.symm
  have hl : (y2 - y1) / (x2 - x1) * (x2 - x1) = y2 - y1 := div_mul_cancel₀ _ hx'
  generalize (y2 - y1) / (x2 - x1) = l at hl
  obtain ⟨h4, e4⟩ := add_gen (h1 := h1) (h2 := h2) hx hl
  rw [e4] at h
  cases h
  have c1 := curve_eq h1
  have c2 := curve_eq h2
  refine ⟨l * (e - x1) + y1, ?_⟩
  -- the coefficient of the line
  have hk : 2 * l * y1 + l * l * (x2 - x1) =
      x2 * x2 + x2 * x1 + x1 * x1 + E.A * (x2 + x1) + 1 := by
    apply mul_left_cancel₀ hx'
    have : y2 = y1 + l * (x2 - x1) := by rw [hl]; ring
    rw [this] at c2
    linear_combination c2 - c1
  linear_combination (x1 - e) * hk - c1 - he

/-- Points of order two. -/
theorem two_torsion_x {P : MPoint E.A} (h2 : (2 : K) ≠ 0) (h : P + P = 0) (h0 : P ≠ 0) :
    ∃ (e : K) (he : (mont E.A).Nonsingular e 0), P = .some e 0 he ∧ e * (e * e + E.A * e + 1) = 0 := by
  rcases P with _ | ⟨a, b, hab⟩
  · exact absurd rfl h0
  · have hb : b = 0 := by
      by_contra hb
      have hl : (3 * a * a + 2 * E.A * a + 1) / (2 * b) * (2 * b) = 3 * a * a + 2 * E.A * a + 1 :=
        div_mul_cancel₀ _ (mul_ne_zero h2 hb)
      obtain ⟨h3, e3⟩ := add_dbl (h := hab) (h' := hab) h2 hb hl
      rw [e3] at h
      cases h
    subst hb
    have := curve_eq hab
    exact ⟨a, hab, rfl, by linear_combination -this⟩

/-- There are at most three points of order two. -/
theorem two_torsion_mem (h2 : (2 : K) ≠ 0) {T1 T2 P : MPoint E.A} (h1 : T1 + T1 = 0) (h2' : T2 + T2 = 0)
    (n1 : T1 ≠ 0) (n2 : T2 ≠ 0) (n12 : T1 ≠ T2) (hP : P + P = 0) :
    P = 0 ∨ P = T1 ∨ P = T2 ∨ P = T1 + T2 := by
  by_cases h0 : P = 0
  · exact Or.inl h0
  have n3 : T1 + T2 ≠ 0 := fun h => n12 (by
    have : T2 = -T1 := (neg_eq_of_add_eq_zero_right h).symm
    rw [this]; exact (neg_eq_of_add_eq_zero_right h1).symm)
  obtain ⟨e1, k1, rfl, f1⟩ := two_torsion_x h2 h1 n1
  obtain ⟨e2, k2, rfl, f2⟩ := two_torsion_x h2 h2' n2
  have d12 : e1 ≠ e2 := fun h => n12 (by subst h; rfl)
  obtain ⟨e3, k3, g3, f3⟩ := two_torsion_x h2 (P := .some e1 0 k1 + .some e2 0 k2)
    (by rw [add_add_add_comm, h1, h2', add_zero]) n3
  obtain ⟨e, k, rfl, f⟩ := two_torsion_x h2 hP h0
  by_cases q1 : e = e1
  · subst q1; exact Or.inr (Or.inl rfl)
  by_cases q2 : e = e2
  · subst q2; exact Or.inr (Or.inr (Or.inl rfl))
  right; right; right
  have hl : ((0 : K) * (e2 - e1)) = 0 - 0 := by ring
  obtain ⟨h4, e4⟩ := add_gen (h1 := k1) (h2 := k2) d12 hl
  rw [e4]
  -- the sum of the roots
  have r1 : e * e + e * e1 + e1 * e1 + E.A * (e + e1) + 1 = 0 := by
    apply mul_left_cancel₀ (sub_ne_zero.mpr q1)
    linear_combination f - f1
  have r2 : e2 * e2 + e2 * e1 + e1 * e1 + E.A * (e2 + e1) + 1 = 0 := by
    apply mul_left_cancel₀ (sub_ne_zero.mpr d12.symm)
    linear_combination f2 - f1
  have r : e + e2 + e1 + E.A = 0 := by
    apply mul_left_cancel₀ (sub_ne_zero.mpr q2)
    linear_combination r1 - r2
  obtain ⟨h', e'⟩ := pt_congr (h := k) (x' := 0 * 0 - E.A - e1 - e2)
    (y' := 0 * (e1 - (0 * 0 - E.A - e1 - e2)) - 0) (by linear_combination r) (by ring)
  exact e'

end

section
variable {H : Type*} [AddCommGroup H]

/-- Two points that are independent modulo `2H` give a basis, when the elements killed by `2^(k-1)`
are in `2H`. -/
theorem basis_of_not_double {k m : Nat} {S1 S2 : H} (hm : m % 2 = 1)
    (k1 : (2 ^ (k + 1) * m) • S1 = 0) (k2 : (2 ^ (k + 1) * m) • S2 = 0)
    (hdiv : ∀ R : H, 2 ^ k • R = 0 → ∃ S, S + S = R)
    (n1 : ∀ R, R + R ≠ S1) (n2 : ∀ R, R + R ≠ S2) (n12 : ∀ R, R + R ≠ S1 + S2) :
    IsBasis (2 ^ (k + 1)) (m • S1) (m • S2) := by
  intro a b
  constructor
  · intro hab
    have key : ∀ j, j ≤ k + 1 → ((2 ^ j : Nat) : Int) ∣ a ∧ ((2 ^ j : Nat) : Int) ∣ b := by
      intro j
      induction j with
      | zero => intro _; simp
      | succ j ih =>
        intro hj
        obtain ⟨⟨a', ha⟩, ⟨b', hb⟩⟩ := ih (by omega)
        have hR : 2 ^ k • (a' • (m • S1) + b' • (m • S2)) = 0 := by
          have h0 : (2 ^ j : Nat) • (a' • (m • S1) + b' • (m • S2)) = 0 := by
            rw [← hab, ha, hb, nsmul_add, mul_zsmul, mul_zsmul, natCast_zsmul, natCast_zsmul]
          obtain ⟨t, rfl⟩ : ∃ t, k = j + t := ⟨k - j, by omega⟩
          rw [pow_add, mul_comm, mul_nsmul', h0, nsmul_zero]
        obtain ⟨S, hS⟩ := hdiv _ hR
        obtain ⟨q, rfl⟩ : ∃ q, m = 2 * q + 1 := ⟨m / 2, by omega⟩
        have hev : (2 : Int) ∣ a' ∧ (2 : Int) ∣ b' := by
          rcases Int.even_or_odd' a' with ⟨s, rfl | rfl⟩ <;> rcases Int.even_or_odd' b' with ⟨t, rfl | rfl⟩
          · exact ⟨⟨s, rfl⟩, ⟨t, rfl⟩⟩
          · exfalso
            apply n2 (S - s • ((2 * q + 1) • S1) - (t * (2 * q + 1) + q) • S2)
            have : S + S - (2 * s) • ((2 * q + 1) • S1) - (2 * (t * (2 * q + 1) + q)) • S2 = S2 := by
              rw [hS]; module
            refine Eq.trans ?_ this; module
          · exfalso
            apply n1 (S - t • ((2 * q + 1) • S2) - (s * (2 * q + 1) + q) • S1)
            have : S + S - (2 * t) • ((2 * q + 1) • S2) - (2 * (s * (2 * q + 1) + q)) • S1 = S1 := by
              rw [hS]; module
            refine Eq.trans ?_ this; module
          · exfalso
            apply n12 (S - (t * (2 * q + 1) + q) • S2 - (s * (2 * q + 1) + q) • S1)
            have : S + S - (2 * (t * (2 * q + 1) + q)) • S2 - (2 * (s * (2 * q + 1) + q)) • S1 = S1 + S2 := by
              rw [hS]; module
            refine Eq.trans ?_ this; module
        obtain ⟨⟨s, rfl⟩, ⟨t, rfl⟩⟩ := hev
        refine ⟨⟨s, ?_⟩, ⟨t, ?_⟩⟩
        · rw [ha, pow_succ]; push_cast; ring
        · rw [hb, pow_succ]; push_cast; ring
    exact key _ le_rfl
  · rintro ⟨⟨a', rfl⟩, ⟨b', rfl⟩⟩
    have e1 : (2 ^ (k + 1) : Nat) • (m • S1) = 0 := by rw [← mul_nsmul', k1]
    have e2 : (2 ^ (k + 1) : Nat) • (m • S2) = 0 := by rw [← mul_nsmul', k2]
    rw [mul_comm _ a', mul_comm _ b', mul_zsmul, mul_zsmul, natCast_zsmul, natCast_zsmul, e1, e2,
      zsmul_zero, zsmul_zero, add_zero]

end

section
variable {K : Type*} [Field K] [DecidableEq K] {E : Crv K}

theorem IsBasis.two_parts {H : Type*} [AddCommGroup H] {k : Nat} {P Q : H} (hb : IsBasis (2 ^ (k + 1)) P Q) :
    (2 ^ k • P + 2 ^ k • P = 0) ∧ (2 ^ k • Q + 2 ^ k • Q = 0) ∧ 2 ^ k • P ≠ 0 ∧ 2 ^ k • Q ≠ 0 ∧
      2 ^ k • P ≠ 2 ^ k • Q := by
  have hnd : ¬ ((2 ^ (k + 1) : Nat) : Int) ∣ ((2 ^ k : Nat) : Int) := by
    rw [Int.natCast_dvd_natCast]
    intro h
    have := Nat.le_of_dvd (by positivity) h
    rw [pow_succ] at this
    have : 0 < 2 ^ k := by positivity
    omega
  refine ⟨?_, ?_, ?_, ?_, ?_⟩
  · rw [← add_nsmul, ← two_mul, ← pow_succ']; exact hb.nsmul_left
  · rw [← add_nsmul, ← two_mul, ← pow_succ']; exact hb.nsmul_right
  · intro h
    exact hnd ((hb ((2 ^ k : Nat) : Int) 0).mp (by rw [natCast_zsmul, h, zero_zsmul, add_zero])).1
  · intro h
    exact hnd ((hb 0 ((2 ^ k : Nat) : Int)).mp (by rw [natCast_zsmul, h, zero_zsmul, add_zero])).2
  · intro h
    exact hnd ((hb ((2 ^ k : Nat) : Int) (-((2 ^ k : Nat) : Int))).mp (by
      rw [neg_zsmul, natCast_zsmul, natCast_zsmul, h, add_neg_cancel])).1

/-- On a curve with a basis of order `2^(k+1)`, points killed by `2^j` are combinations of the
multiples of the basis by `2^(k+1-j)`. -/
theorem IsBasis.mem_torsion (h2 : (2 : K) ≠ 0) {k : Nat} {P Q : MPoint E.A} (hb : IsBasis (2 ^ (k + 1)) P Q)
    (j : Nat) (hj : j ≤ k + 1) (R : MPoint E.A) (hR : 2 ^ j • R = 0) :
    ∃ a b : Int, R = 2 ^ (k + 1 - j) • (a • P + b • Q) := by
  obtain ⟨t1, t2, n1, n2, n12⟩ := hb.two_parts
  induction j generalizing R with
  | zero =>
    rw [pow_zero, one_nsmul] at hR
    exact ⟨0, 0, by rw [hR, zero_zsmul, zero_zsmul, add_zero, nsmul_zero]⟩
  | succ j ih =>
    obtain ⟨a, b, hab⟩ := ih (by omega) (2 • R) (by rw [← mul_nsmul', ← pow_succ, hR])
    have hp : k + 1 - j = (k + 1 - (j + 1)) + 1 := by omega
    rw [hp, pow_succ, mul_comm, mul_nsmul'] at hab
    generalize hU : 2 ^ (k + 1 - (j + 1)) • (a • P + b • Q) = U at hab
    have hpk : 2 ^ k = 2 ^ (k + 1 - (j + 1)) * 2 ^ j := by rw [← pow_add]; congr 1; omega
    have hT : (R - U) + (R - U) = 0 := by
      have : (R - U) + (R - U) = 2 • R - 2 • U := by module
      rw [this, hab, sub_self]
    have hfin : ∀ c d : Nat, R - U = c • (2 ^ k • P) + d • (2 ^ k • Q) →
        ∃ a b : Int, R = 2 ^ (k + 1 - (j + 1)) • (a • P + b • Q) := by
      intro c d h
      refine ⟨a + c * 2 ^ j, b + d * 2 ^ j, ?_⟩
      rw [sub_eq_iff_eq_add.mp h, ← hU, hpk]
      generalize 2 ^ (k + 1 - (j + 1)) = g
      module
    rcases two_torsion_mem h2 t1 t2 n1 n2 n12 hT with h | h | h | h
    · exact hfin 0 0 (by rw [h]; simp)
    · exact hfin 1 0 (by rw [h]; simp)
    · exact hfin 0 1 (by rw [h]; simp)
    · exact hfin 1 1 (by rw [h]; simp)

theorem IsBasis.halve (h2 : (2 : K) ≠ 0) {k : Nat} {P Q : MPoint E.A} (hb : IsBasis (2 ^ (k + 1)) P Q)
    (R : MPoint E.A) (hR : 2 ^ k • R = 0) : ∃ S, S + S = R := by
  obtain ⟨a, b, h⟩ := hb.mem_torsion h2 k (by omega) R hR
  refine ⟨a • P + b • Q, ?_⟩
  rw [h, show k + 1 - k = 1 by omega, pow_one, two_nsmul]

/-- A root of the cubic other than `0` and a given value. -/
theorem IsBasis.exists_root (h2 : (2 : K) ≠ 0) {k : Nat} {P Q : MPoint E.A} (hb : IsBasis (2 ^ (k + 1)) P Q)
    (x : K) : ∃ e, e * e + E.A * e + 1 = 0 ∧ e ≠ x := by
  obtain ⟨t1, t2, n1, n2, n12⟩ := hb.two_parts
  have n3 : 2 ^ k • P + 2 ^ k • Q ≠ 0 := fun h => n12 (by
    have : (2 ^ k • Q : MPoint E.A) = -(2 ^ k • P) := (neg_eq_of_add_eq_zero_right h).symm
    rw [this]; exact (neg_eq_of_add_eq_zero_right t1).symm)
  obtain ⟨e3, k3, g3, f3⟩ := two_torsion_x h2 (P := 2 ^ k • P + 2 ^ k • Q)
    (by rw [add_add_add_comm, t1, t2, add_zero]) n3
  obtain ⟨e1, k1, g1, f1⟩ := two_torsion_x h2 t1 n1
  obtain ⟨e2, k2, g2, f2⟩ := two_torsion_x h2 t2 n2
  have d12 : e1 ≠ e2 := fun h => n12 (by rw [g1, g2]; subst h; rfl)
  have d13 : e1 ≠ e3 := fun h => n2 (by
    have : 2 ^ k • P = 2 ^ k • P + 2 ^ k • Q := by rw [g3, g1]; subst h; rfl
    exact left_eq_add.mp this)
  have d23 : e2 ≠ e3 := fun h => n1 (by
    have : 2 ^ k • Q = 2 ^ k • P + 2 ^ k • Q := by rw [g3, g2]; subst h; rfl
    exact right_eq_add.mp this)
  have fin : ∀ e, e * (e * e + E.A * e + 1) = 0 → e ≠ 0 → e * e + E.A * e + 1 = 0 :=
    fun e h h0 => (mul_eq_zero.mp h).resolve_left h0
  by_cases h10 : e1 = 0
  · have h20 : e2 ≠ 0 := fun h => d12 (h10.trans h.symm)
    have h30 : e3 ≠ 0 := fun h => d13 (h10.trans h.symm)
    by_cases hx : e2 = x
    · exact ⟨e3, fin _ f3 h30, fun h => d23 (hx.trans h.symm)⟩
    · exact ⟨e2, fin _ f2 h20, hx⟩
  · by_cases hx : e1 = x
    · by_cases h20 : e2 = 0
      · exact ⟨e3, fin _ f3 (fun h => d23 (h20.trans h.symm)), fun h => d13 (hx.trans h.symm)⟩
      · exact ⟨e2, fin _ f2 h20, fun h => d12 (hx.trans h.symm)⟩
    · exact ⟨e1, fin _ f1 h10, hx⟩

/-- Two entangled points: sum of the abscissas `-A`, product of the abscissas a square, first
abscissa a non-square. -/
theorem entangled_basis (hE : E.Good) {z : K} (hz : z * z = -1) {k m : Nat} (hk : 1 ≤ k) (hm : m % 2 = 1)
    {P Q : MPoint E.A} (hb : IsBasis (2 ^ (k + 1)) P Q) {x1 y1 x2 y2 : K}
    {h1 : (mont E.A).Nonsingular x1 y1} {h2 : (mont E.A).Nonsingular x2 y2} (hs : x1 + x2 = -E.A)
    (hx : x1 ≠ x2) (q1 : ¬ IsSquare x1) (q2 : ¬ IsSquare x2)
    (k1 : (2 ^ (k + 1) * m) • (.some x1 y1 h1 : MPoint E.A) = 0)
    (k2 : (2 ^ (k + 1) * m) • (.some x2 y2 h2 : MPoint E.A) = 0) :
    IsBasis (2 ^ (k + 1)) (m • (.some x1 y1 h1 : MPoint E.A)) (m • (.some x2 y2 h2 : MPoint E.A)) := by
  have f0 : (0 : K) * (0 * 0 + E.A * 0 + 1) = 0 := zero_mul _
  have n1 : ∀ R : MPoint E.A, R + R ≠ .some x1 y1 h1 := fun R hR =>
    q1 (by simpa using double_x_sq hE hR f0)
  refine basis_of_not_double hm k1 k2 (hb.halve hE.two) n1
    (fun R hR => q2 (by simpa using double_x_sq hE hR f0)) ?_
  intro R hR
  have hl : (y2 - y1) / (x2 - x1) * (x2 - x1) = y2 - y1 := div_mul_cancel₀ _ (sub_ne_zero.mpr hx.symm)
  obtain ⟨h3, e3⟩ := add_gen (h1 := h1) (h2 := h2) hx hl
  generalize (y2 - y1) / (x2 - x1) * ((y2 - y1) / (x2 - x1)) - E.A - x1 - x2 = x3 at h3 e3
  obtain ⟨e, he, hne⟩ := hb.exists_root hE.two x3
  have he' : e * (e * e + E.A * e + 1) = 0 := by rw [he, mul_zero]
  obtain ⟨r, hr⟩ := add_x_sq hx e3 he'
  rw [e3] at hR
  obtain ⟨q, hq⟩ := double_x_sq hE hR he'
  have hq0 : q ≠ 0 := by
    rintro rfl
    rw [mul_zero] at hq
    exact hne (sub_eq_zero.mp hq).symm
  -- `x1 x2 - 1` is a square
  have hw : (r / q) * (r / q) = x1 * x2 - 1 := by
    rw [div_mul_div_comm, div_eq_iff (mul_ne_zero hq0 hq0), ← hr, ← hq]
    linear_combination (x3 - e) * he - (x3 - e) * e * hs
  generalize r / q = w at hw
  have hc := curve_eq h1
  have hy : y1 * y1 = -x1 * (w * w) := by
    rw [hw]; linear_combination hc + x1 * x1 * hs
  by_cases hw0 : w = 0
  · have hy0 : y1 = 0 := mul_self_eq_zero.mp (by rw [hy, hw0]; ring)
    obtain ⟨S, hS⟩ := hb.halve hE.two (.some x1 y1 h1) (by
      obtain ⟨t, rfl⟩ : ∃ t, k = t + 1 := ⟨k - 1, by omega⟩
      rw [pow_succ, mul_nsmul', two_nsmul, add_opp (by rw [hy0, neg_zero]), nsmul_zero])
    exact n1 S hS
  · apply q1
    refine ⟨z * y1 / w, ?_⟩
    rw [div_mul_div_comm, eq_div_iff (mul_ne_zero hw0 hw0)]
    linear_combination hy - y1 * y1 * hz

end
end Festa
