import Verif.Lemmas.Fp2
import Mathlib.NumberTheory.LegendreSymbol.QuadraticChar.Basic
/-! Square and fourth roots in the extension field. -/
namespace Festa
variable {P : FpParams}

/-- The product of two non-squares is a square. -/
theorem nonsq_mul_nonsq (hR : P.RootValid) {x y : ZMod P.p} (hx : ¬ IsSquare x) (hy : ¬ IsSquare y) :
    IsSquare (x * y) := by
  have : Fact P.p.Prime := ⟨hR.prime⟩
  have h2 : ringChar (ZMod P.p) ≠ 2 := by
    rw [ZMod.ringChar_zmod_n]; have := hR.mod8; omega
  have hx0 : x ≠ 0 := by rintro rfl; exact hx ⟨0, by simp⟩
  have hy0 : y ≠ 0 := by rintro rfl; exact hy ⟨0, by simp⟩
  have e : quadraticChar (ZMod P.p) (x * y) = 1 := by
    rw [map_mul, quadraticChar_neg_one_iff_not_isSquare.mpr hx,
      quadraticChar_neg_one_iff_not_isSquare.mpr hy]
    norm_num
  exact (quadraticChar_one_iff_isSquare (mul_ne_zero hx0 hy0)).mp e

theorem neg_square_of_nonsq (hR : P.RootValid) {x : ZMod P.p} (hx : ¬ IsSquare x) :
    IsSquare (-x) := by
  have := nonsq_mul_nonsq hR hx (neg_one_nonsquare hR)
  rwa [mul_neg_one] at this

theorem nonsq_neg_of_square (hR : P.RootValid) {x : ZMod P.p} (hx : IsSquare x) (h0 : x ≠ 0) :
    ¬ IsSquare (-x) := by
  have : Fact P.p.Prime := ⟨hR.prime⟩
  rintro ⟨b, hb⟩
  obtain ⟨a, ha⟩ := hx
  have : a = 0 ∧ b = 0 := sq_add_sq_eq_zero hR (by rw [← ha, ← hb]; ring)
  apply h0; rw [ha, this.1]; simp

/-- If `x * y = -(w*w)` with `w` nonzero, one of `x`, `y` is a square. -/
theorem sq_or_sq (hR : P.RootValid) {x y w : ZMod P.p} (h : x * y = -(w * w)) (hw : w ≠ 0)
    (hx : ¬ IsSquare x) : IsSquare y := by
  have : Fact P.p.Prime := ⟨hR.prime⟩
  by_contra hy
  have := nonsq_mul_nonsq hR hx hy
  rw [h] at this
  exact nonsq_neg_of_square hR ⟨w, rfl⟩ (mul_ne_zero hw hw) this

theorem two_ne_zero' (hR : P.RootValid) : (2 : ZMod P.p) ≠ 0 := by
  have : Fact P.p.Prime := ⟨hR.prime⟩
  have h := (ZMod.natCast_eq_zero_iff 2 P.p).not.mpr (by
    intro h; have := Nat.le_of_dvd (by norm_num) h; have := hR.mod8; omega)
  exact_mod_cast h

/-- An element of `F_p[i]` is a square exactly when its norm is a square in `F_p`. -/
theorem isSquare_f2 (hR : P.RootValid) (z : F2 P) :
    IsSquare z ↔ IsSquare (z.re * z.re + z.im * z.im) := by
  have : Fact P.p.Prime := ⟨hR.prime⟩
  have h2 := two_ne_zero' hR
  constructor
  · rintro ⟨w, rfl⟩
    refine ⟨w.re * w.re + w.im * w.im, ?_⟩
    rw [F2.mul_re, F2.mul_im]; ring
  · rintro ⟨s, hs⟩
    have build : ∀ u v : ZMod P.p, u * u - v * v = z.re → 2 * u * v = z.im → IsSquare z := by
      intro u v h1 h3
      refine ⟨⟨u, v⟩, QuadraticAlgebra.ext ?_ ?_⟩
      · rw [F2.mul_re]; exact h1.symm
      · rw [F2.mul_im]; rw [← h3]; ring
    by_cases him : z.im = 0
    · by_cases hx : IsSquare z.re
      · obtain ⟨u, hu⟩ := hx
        exact build u 0 (by rw [hu]; ring) (by rw [him]; ring)
      · obtain ⟨u, hu⟩ := neg_square_of_nonsq hR hx
        exact build 0 u (by linear_combination hu) (by rw [him]; ring)
    · have key : (z.re + s) / 2 * ((z.re - s) / 2) = -(z.im / 2 * (z.im / 2)) := by
        field_simp; linear_combination hs
      have hw : z.im / 2 ≠ 0 := div_ne_zero him h2
      have go : ∀ t : ZMod P.p, (t = s ∨ t = -s) → IsSquare ((z.re + t) / 2) → IsSquare z := by
        rintro t ht ⟨u, hu⟩
        have htt : t * t = z.re * z.re + z.im * z.im := by
          rcases ht with rfl | rfl <;> rw [hs] <;> ring
        have hu' : 2 * (u * u) = z.re + t := by rw [← hu]; field_simp
        have hu0 : u ≠ 0 := by
          rintro rfl
          have : t = -z.re := by linear_combination -hu'
          rw [this] at htt
          have : z.im * z.im = 0 := by linear_combination -htt
          exact him (mul_self_eq_zero.mp this)
        refine build u (z.im / (2 * u)) ?_ (by field_simp)
        field_simp
        linear_combination (2 * u^2 - z.re + t) * hu' + htt
      by_cases hx : IsSquare ((z.re + s) / 2)
      · exact go s (Or.inl rfl) hx
      · exact go (-s) (Or.inr rfl) (by
          have := sq_or_sq hR key hw hx
          rwa [sub_eq_add_neg] at this)

theorem sqrt2_spec (hV : P.Valid) (hD : P.DivValid) (hR : P.RootValid) {a : Fp2} {z : F2 P}
    (ha : Rep2 P a z) :
    (IsSquare z → (fp2Sqrt P a).2 = 0xFFFFFFFF ∧
      ∃ s, Rep2 P (fp2Sqrt P a).1 s ∧ s * s = z ∧ SignZero s) ∧
    (¬ IsSquare z → (fp2Sqrt P a).2 = 0 ∧ Rep2 P (fp2Sqrt P a).1 0) := by
  have : Fact P.p.Prime := ⟨hR.prime⟩
  have h2 := two_ne_zero' hR
  obtain ⟨c1, sd, d1, d2, d3, d4, -⟩ := sqrt_form hV hR (rep_norm hV ha)
  have hh := rep_half hV (y := (z.re + sd) / 2) (rep_add hV ha.1 d2) (by field_simp; ring)
  obtain ⟨cz, e1, e2⟩ := iszero_form hV ha.2
  have hy1 := cond_form hh ha.1 cz
  obtain ⟨cn, f1, f2⟩ := leg_form hV hR.prime hy1
  have hy2 := rep_condneg hV hy1 (cn && cz)
  have hy3 := cond_form hy2 (rep_sub hV hy2 d2) (cn && !cz)
  obtain ⟨c2, y0, g1, g2, g3, g4, -⟩ := sqrt_form hV hR hy3
  obtain ⟨y1, k1, k2, k3⟩ := div_form hV hD hR ha.2 (rep_mul2 hV g2)
  have hsw := swap_form g2 k1 (cn && cz)
  have hfin := finish_form hV hsw.1 hsw.2
  simp only [fp2Sqrt, e1, f1, d1, ctl_and, ctl_not, g1]
  -- the algebra
  have hc2 : c1 = true → c2 = true ∧
      ((if (cn && cz) then y1 else y0) * (if (cn && cz) then y1 else y0) -
        (if (cn && cz) then y0 else y1) * (if (cn && cz) then y0 else y1) = z.re ∧
       2 * ((if (cn && cz) then y1 else y0) * (if (cn && cz) then y0 else y1)) = z.im) := by
    intro hc1
    have hs := d4 hc1
    cases hcz : cz
    · have him : z.im ≠ 0 := fun h => by rw [e2.mpr h] at hcz; exact absurd hcz (by simp)
      subst hcz
      simp only [Bool.false_eq_true, if_false, Bool.and_false, Bool.not_false, Bool.and_true] at *
      have key : (z.re + sd) / 2 * ((z.re + sd) / 2 - sd) = -(z.im / 2 * (z.im / 2)) := by
        field_simp; linear_combination -hs
      have hw : z.im / 2 ≠ 0 := div_ne_zero him h2
      have hsq : IsSquare (if cn = true then (z.re + sd) / 2 - sd else (z.re + sd) / 2) := by
        cases hcn : cn
        · simp only [Bool.false_eq_true, if_false]
          by_contra hc
          rw [f2.mpr hc] at hcn
          exact absurd hcn (by simp)
        · simp only [if_true]
          exact sq_or_sq hR key hw (f2.mp hcn)
      have hc2 := g3.mpr hsq
      have hy := g4 hc2
      have hy0 : y0 ≠ 0 := by
        rintro rfl
        rw [zero_mul] at hy
        have : (z.re + sd) / 2 * ((z.re + sd) / 2 - sd) = 0 := by
          cases cn
          · simp only [Bool.false_eq_true, if_false] at hy; rw [← hy]; ring
          · simp only [if_true] at hy; rw [← hy]; ring
        rw [key] at this
        exact hw (mul_self_eq_zero.mp (by linear_combination -this))
      have hk := k2 (mul_ne_zero h2 hy0)
      refine ⟨hc2, ?_, by linear_combination hk⟩
      have h4 : 4 * (y0 * y0) * (y1 * y1) = z.im * z.im := by rw [← hk]; ring
      have hY : (2 * (y0 * y0) - z.re) * (2 * (y0 * y0) - z.re) = sd * sd := by
        cases cn
        · simp only [Bool.false_eq_true, if_false] at hy; rw [hy]; field_simp; ring
        · simp only [if_true] at hy; rw [hy]; field_simp; ring
      have : 4 * (y0 * y0) * (y0 * y0 - y1 * y1 - z.re) = 0 := by
        linear_combination hY + hs - h4
      have h4' : 4 * (y0 * y0) ≠ 0 := by
        rw [show (4 : ZMod P.p) = 2 * 2 by norm_num]
        exact mul_ne_zero (mul_ne_zero h2 h2) (mul_ne_zero hy0 hy0)
      have := (mul_eq_zero.mp this).resolve_left h4'
      linear_combination this
    · have him : z.im = 0 := e2.mp hcz
      subst hcz
      simp only [if_true, Bool.and_true, Bool.not_true, Bool.and_false, Bool.false_eq_true,
        if_false] at *
      have hsq : IsSquare (if cn = true then -z.re else z.re) := by
        cases hcn : cn
        · simp only [Bool.false_eq_true, if_false]
          by_contra hc
          rw [f2.mpr hc] at hcn
          exact absurd hcn (by simp)
        · simp only [if_true]
          exact neg_square_of_nonsq hR (f2.mp hcn)
      have hc2 := g3.mpr hsq
      have hy := g4 hc2
      have hy1 : y1 = 0 := by
        by_cases hy0 : 2 * y0 = 0
        · exact k3 hy0
        · have := k2 hy0
          rw [him] at this
          exact (mul_eq_zero.mp this).resolve_right hy0
      refine ⟨hc2, ?_, ?_⟩
      · rw [hy1]
        cases cn
        · simp only [Bool.false_eq_true, if_false] at *; linear_combination hy
        · simp only [if_true] at *; linear_combination -hy
      · rw [hy1, him]; cases cn <;> simp
  rw [isSquare_f2 hR, ← d3]
  refine ⟨fun hc1 => ?_, fun hc1 => ?_⟩
  · obtain ⟨hc2', m1, m2⟩ := hc2 hc1
    rw [hc1, hc2']
    obtain ⟨-, s, n1, n2, n3⟩ := hfin
    refine ⟨rfl, s, n1, ?_, n3⟩
    have main : ∀ u v : ZMod P.p, u * u - v * v = z.re → 2 * (u * v) = z.im →
        (s = ⟨u, v⟩ ∨ s = ⟨-u, -v⟩) → s * s = z := by
      intro u v h1 h3 h
      refine QuadraticAlgebra.ext ?_ ?_
      · rw [F2.mul_re, ← h1]
        rcases h with h | h <;> rw [h] <;> simp
      · rw [F2.mul_im, ← h3]
        rcases h with h | h <;> rw [h] <;> simp only <;> ring
    exact main _ _ m1 m2 n2
  · have : c1 = false := by simpa using hc1
    rw [this]
    exact ⟨rfl, hfin.1⟩

theorem fourth2_spec (hV : P.Valid) (hD : P.DivValid) (hR : P.RootValid) {a : Fp2} {z : F2 P}
    (ha : Rep2 P a z) :
    ((∃ w, w ^ 4 = z) → (fp2FourthRoot P a).2 = 0xFFFFFFFF ∧
      ∃ s, Rep2 P (fp2FourthRoot P a).1 s ∧ s ^ 4 = z ∧ SignZero s) ∧
    ((¬ ∃ w, w ^ 4 = z) → (fp2FourthRoot P a).2 = 0 ∧ Rep2 P (fp2FourthRoot P a).1 0) := by
  have : Fact P.p.Prime := ⟨hR.prime⟩
  have h2 := two_ne_zero' hR
  have h4 : (4 : ZMod P.p) ≠ 0 := by
    rw [show (4 : ZMod P.p) = 2 * 2 by norm_num]; exact mul_ne_zero h2 h2
  obtain ⟨c1, n, d1, d2, d3, d4, d5⟩ := fourth_form hV hR (rep_norm hV ha)
  have hdisc := rep_half hV (y := (n * n + z.re) / 2) (rep_add hV (rep_square hV d2) ha.1)
    (by field_simp; ring)
  obtain ⟨c2, d, e1, e2, e3, e4, e5⟩ := sqrt_form hV hR hdisc
  have hy0 := rep_half hV (y := (d + n) / 2) (rep_add hV e2 d2) (by field_simp; ring)
  obtain ⟨cn, f1, f2⟩ := leg_form hV hR.prime hy0
  have hy1 := cond_form hy0 (rep_sub hV hy0 d2) cn
  have hn := rep_condneg hV d2 cn
  obtain ⟨cy, g1, g2⟩ := iszero_form hV hy1
  have hy2 := cond_form hy1 hn cy
  obtain ⟨c3, y0, k1, k2, k3, k4, k5⟩ := sqrt_form hV hR hy2
  have hd4 : Rep P (fpMul4 P (fpSqrt P (fpHalf P (fpAdd P (fpSquare P (fpFourthRoot P (fp2Norm P a)).1) a.x0))).1) (4 * d) := by
    have := rep_mul2 hV (rep_mul2 hV e2)
    rwa [show 2 * (2 * d) = 4 * d by ring] at this
  obtain ⟨y1, l1, l2, l3⟩ := div_form hV hD hR ha.2 (rep_mul hV k2 hd4)
  obtain ⟨cx, m1, m2⟩ := iszero_form hV ha.2
  obtain ⟨cd, n1, n2⟩ := iszero_form hV hdisc
  have hy1' := cond_form l1 k2 (cx && cd)
  have hfin := finish_form hV k2 hy1'
  simp only [fp2FourthRoot, d1, e1, f1, g1, k1, m1, n1, ctl_and]
  -- necessity
  have hnec : (∃ w : F2 P, w ^ 4 = z) → c1 = true ∧ c2 = true := by
    rintro ⟨w, hw⟩
    have hz : z = (w * w) * (w * w) := by rw [← hw]; ring
    have hN : z.re * z.re + z.im * z.im =
        ((w.re * w.re + w.im * w.im) ^ 2) * ((w.re * w.re + w.im * w.im) ^ 2) := by
      rw [hz]; simp only [F2.mul_re, F2.mul_im]; ring
    have hc1 : c1 = true := d3.mpr ⟨_, hN⟩
    refine ⟨hc1, e3.mpr ?_⟩
    have hn4 := d4 hc1
    rw [hN] at hn4
    -- n^2 = N(w)^2 because both are squares with the same square
    have hn2 : n * n = (w.re * w.re + w.im * w.im) * (w.re * w.re + w.im * w.im) := by
      have hf : (n * n - (w.re * w.re + w.im * w.im) ^ 2) *
          (n * n + (w.re * w.re + w.im * w.im) ^ 2) = 0 := by linear_combination hn4
      rcases mul_eq_zero.mp hf with h | h
      · linear_combination h
      · obtain ⟨ha0, hb0⟩ := sq_add_sq_eq_zero hR
          (x := n) (y := w.re * w.re + w.im * w.im) (by linear_combination h)
        rw [ha0, hb0]
    refine ⟨w.re * w.re - w.im * w.im, ?_⟩
    rw [hn2, hz, F2.mul_re, F2.mul_re, F2.mul_im]
    field_simp
    ring
  -- sufficiency
  have hsuf : c1 = true → c2 = true → c3 = true ∧
      ((⟨y0, if (cx && cd) then y0 else y1⟩ : F2 P) ^ 4 = z) := by
    intro hc1 hc2
    have hn4 := d4 hc1
    have hd := e4 hc2
    have hpow : ∀ u v : ZMod P.p, (u * u - v * v) * (u * u - v * v) - (2 * u * v) * (2 * u * v) = z.re →
        2 * (u * u - v * v) * (2 * u * v) = z.im → ((⟨u, v⟩ : F2 P) ^ 4 = z) := by
      intro u v q1 q2
      rw [show ((⟨u, v⟩ : F2 P) ^ 4) = (⟨u, v⟩ * ⟨u, v⟩) * (⟨u, v⟩ * ⟨u, v⟩) by ring]
      refine QuadraticAlgebra.ext ?_ ?_
      · rw [F2.mul_re, F2.mul_re, F2.mul_im]; rw [← q1]; ring
      · rw [F2.mul_im, F2.mul_re, F2.mul_im]; rw [← q2]; ring
    have hd' : 2 * (d * d) = n * n + z.re := by rw [hd]; field_simp
    by_cases hd0 : d = 0
    · -- discriminant zero
      have hdisc0 : (n * n + z.re) / 2 = 0 := by rw [← hd, hd0]; ring
      have hre : z.re = -(n * n) := by
        have : n * n + z.re = 0 := by rw [← hd', hd0]; ring
        linear_combination this
      have him : z.im = 0 := by
        have : z.im * z.im = 0 := by rw [hre] at hn4; linear_combination -hn4
        exact mul_self_eq_zero.mp this
      have hcx : cx = true := m2.mpr him
      have hcd : cd = true := n2.mpr hdisc0
      subst hd0
      rw [zero_add] at *
      have hsq : IsSquare (if cy = true then (if cn = true then -n else n)
          else (if cn = true then n / 2 - n else n / 2)) ∧
          ∃ e : ZMod P.p, (e = 1 ∨ e = -1) ∧ (if cy = true then (if cn = true then -n else n)
          else (if cn = true then n / 2 - n else n / 2)) = e * (n / 2) := by
        by_cases hn0 : n = 0
        · subst hn0
          refine ⟨⟨0, by cases cn <;> cases cy <;> simp⟩, 1, Or.inl rfl, ?_⟩
          cases cn <;> cases cy <;> simp
        · have hcy : cy = false := by
            cases hcy : cy
            · rfl
            · exfalso
              have := g2.mp hcy
              cases cn
              · simp only [Bool.false_eq_true, if_false] at this
                exact (div_ne_zero hn0 h2) this
              · simp only [if_true] at this
                apply div_ne_zero hn0 h2
                have e : n / 2 - n = -(n / 2) := by field_simp; ring
                rw [e] at this
                exact neg_eq_zero.mp this
          simp only [hcy, Bool.false_eq_true, if_false]
          cases hcn : cn
          · simp only [Bool.false_eq_true, if_false]
            refine ⟨?_, 1, Or.inl rfl, by ring⟩
            by_contra hc
            rw [f2.mpr hc] at hcn; exact absurd hcn (by simp)
          · simp only [if_true]
            have e : n / 2 - n = -(n / 2) := by field_simp; ring
            rw [e]
            exact ⟨neg_square_of_nonsq hR (f2.mp hcn), -1, Or.inr rfl, by ring⟩
      obtain ⟨hs1, ee, he, hs2⟩ := hsq
      have hc3 := k3.mpr hs1
      refine ⟨hc3, ?_⟩
      have hyy := k4 hc3
      rw [hs2] at hyy
      have hee : ee * ee = 1 := by rcases he with h | h <;> rw [h] <;> ring
      simp only [hcx, hcd, Bool.and_true, if_true]
      apply hpow
      · rw [hre]
        have : (2 * (y0 * y0)) * (2 * (y0 * y0)) = n * n := by
          rw [hyy]; field_simp; linear_combination n ^ 2 * hee
        linear_combination -this
      · rw [him]; ring
    · have hdisc0 : (n * n + z.re) / 2 ≠ 0 := by rw [← hd]; exact mul_ne_zero hd0 hd0
      have hcd : cd = false := by
        cases hcd : cd
        · rfl
        · exact absurd (n2.mp hcd) hdisc0
      simp only [hcd, Bool.and_false, Bool.false_eq_true, if_false]
      -- w1 = im / (2 d)
      obtain ⟨w1, hw1⟩ : ∃ w1, w1 * (2 * d) = z.im := ⟨z.im / (2 * d), by field_simp⟩
      have hww : 2 * (w1 * w1) = n * n - z.re := by
        have h8 : (2 * (d * d)) * (2 * (w1 * w1)) = (2 * (d * d)) * (n * n - z.re) := by
          have : 4 * (d * d) * (w1 * w1) = z.im * z.im := by rw [← hw1]; ring
          rw [show (2 * (d * d)) * (2 * (w1 * w1)) = 4 * (d * d) * (w1 * w1) by ring, this, hd']
          linear_combination -hn4
        exact mul_left_cancel₀ (mul_ne_zero h2 (mul_ne_zero hd0 hd0)) h8
      have hnorm : d * d + w1 * w1 = n * n := by
        have : 2 * (d * d + w1 * w1) = 2 * (n * n) := by linear_combination hd' + hww
        exact mul_left_cancel₀ h2 this
      have hwre : d * d - w1 * w1 = z.re := by
        have : 2 * (d * d - w1 * w1) = 2 * z.re := by linear_combination hd' - hww
        exact mul_left_cancel₀ h2 this
      by_cases hw0 : w1 = 0
      · -- real fourth root
        subst hw0
        have him : z.im = 0 := by rw [← hw1]; ring
        have hdn : d = n := by
          have : (d - n) * (d + n) = 0 := by linear_combination hnorm
          rcases mul_eq_zero.mp this with h | h
          · linear_combination h
          · exfalso
            have e : d = -n := by linear_combination h
            have : n = 0 := eq_zero_of_even_neg hV d5 (by rw [← e]; exact e5)
            rw [this, neg_zero] at e
            exact hd0 e
        subst hdn
        have e : (d + d) / 2 = d := by field_simp; ring
        rw [e] at f2 g2 k3 k4
        have hyv : IsSquare (if cy = true then (if cn = true then -d else d)
            else (if cn = true then d - d else d)) ∧ ((if cy = true then (if cn = true then -d else d)
            else (if cn = true then d - d else d)) = d ∨ (if cy = true then (if cn = true then -d else d)
            else (if cn = true then d - d else d)) = -d) := by
          cases hcn : cn
          · simp only [Bool.false_eq_true, if_false, ite_self]
            refine ⟨?_, Or.inl trivial⟩
            by_contra hc
            rw [f2.mpr hc] at hcn; exact absurd hcn (by simp)
          · have hcy : cy = true := by
              rw [g2, hcn]; simp
            simp only [hcy, if_true]
            exact ⟨neg_square_of_nonsq hR (f2.mp hcn), Or.inr trivial⟩
        have hc3 := k3.mpr hyv.1
        have hyy := k4 hc3
        refine ⟨hc3, ?_⟩
        have hy00 : y0 ≠ 0 := by
          rintro rfl
          rw [zero_mul] at hyy
          rcases hyv.2 with h | h
          · rw [h] at hyy; exact hd0 hyy.symm
          · rw [h] at hyy; exact hd0 (neg_eq_zero.mp hyy.symm)
        have hy10 : y1 = 0 := by
          have hne : y0 * (4 * d) ≠ 0 := mul_ne_zero hy00 (mul_ne_zero h4 hd0)
          have := l2 hne
          rw [him] at this
          exact (mul_eq_zero.mp this).resolve_right hne
        subst hy10
        apply hpow
        · have : (y0 * y0) * (y0 * y0) = d * d := by
            rw [hyy]
            rcases hyv.2 with h | h <;> rw [h] <;> ring
          rw [← hwre]; linear_combination this
        · rw [him]; ring
      · have key : (d + n) / 2 * ((d + n) / 2 - n) = -(w1 / 2 * (w1 / 2)) := by
          field_simp; linear_combination hnorm
        have hw2 : w1 / 2 ≠ 0 := div_ne_zero hw0 h2
        have hsq : IsSquare (if cn = true then (d + n) / 2 - n else (d + n) / 2) := by
          cases hcn : cn
          · simp only [Bool.false_eq_true, if_false]
            by_contra hc
            rw [f2.mpr hc] at hcn; exact absurd hcn (by simp)
          · simp only [if_true]
            exact sq_or_sq hR key hw2 (f2.mp hcn)
        have hcy : cy = false := by
          cases hcy : cy
          · rfl
          · exfalso
            have h0 := g2.mp hcy
            have : (d + n) / 2 * ((d + n) / 2 - n) = 0 := by
              cases cn
              · simp only [Bool.false_eq_true, if_false] at h0; rw [h0]; ring
              · simp only [if_true] at h0; rw [h0]; ring
            rw [key] at this
            exact hw2 (mul_self_eq_zero.mp (by linear_combination -this))
        simp only [hcy, Bool.false_eq_true, if_false] at k3 k4
        have hc3 := k3.mpr hsq
        have hyy := k4 hc3
        refine ⟨hc3, ?_⟩
        have hy00 : y0 ≠ 0 := by
          rintro rfl
          have h0 : (if cn = true then (d + n) / 2 - n else (d + n) / 2) = 0 := by
            rw [← hyy]; ring
          rw [hcy] at g2
          exact absurd (g2.mpr h0) (by simp)
        have hl := l2 (mul_ne_zero hy00 (mul_ne_zero h4 hd0))
        -- 2 y0 y1 = w1
        have h2y : 2 * y0 * y1 = w1 := by
          have : 2 * d * (2 * y0 * y1) = 2 * d * w1 := by rw [← hw1] at hl; linear_combination hl
          exact mul_left_cancel₀ (mul_ne_zero h2 hd0) this
        have hYd : (2 * (y0 * y0) - d) * (2 * (y0 * y0) - d) = n * n := by
          rw [hyy]
          cases cn
          · simp only [Bool.false_eq_true, if_false]; field_simp; ring
          · simp only [if_true]; field_simp; ring
        have hdd : y0 * y0 - y1 * y1 = d := by
          have h44 : 4 * (y0 * y0) * (y1 * y1) = w1 * w1 := by rw [← h2y]; ring
          have : 4 * (y0 * y0) * (y0 * y0 - y1 * y1 - d) = 0 := by
            linear_combination hYd - h44 - hnorm
          have := (mul_eq_zero.mp this).resolve_left (mul_ne_zero h4 (mul_ne_zero hy00 hy00))
          linear_combination this
        apply hpow
        · rw [hdd, h2y]; exact hwre
        · rw [hdd, h2y, ← hw1]; ring
  refine ⟨fun hw => ?_, fun hw => ?_⟩
  · obtain ⟨hc1, hc2⟩ := hnec hw
    obtain ⟨hc3, hp⟩ := hsuf hc1 hc2
    rw [hc1, hc2, hc3]
    obtain ⟨-, s, q1, q2, q3⟩ := hfin
    refine ⟨rfl, s, q1, ?_, q3⟩
    rcases q2 with h | h
    · rw [h]; exact hp
    · rw [h, show (⟨-y0, -(if (cx && cd) = true then y0 else y1)⟩ : F2 P)
        = -⟨y0, (if (cx && cd) = true then y0 else y1)⟩ from rfl, Even.neg_pow (by decide)]
      exact hp
  · have : (c1 && c2 && c3) = false := by
      cases h1 : c1
      · rfl
      · cases h2' : c2
        · rfl
        · exact absurd ⟨_, (hsuf h1 h2').2⟩ hw
    rw [this]
    exact ⟨rfl, hfin.1⟩

end Festa
