import Verif.Lemmas.Riemann
/-! The Riemann relations are carried over by an isogeny given by a dual null point. -/
namespace Festa
variable {K : Type*} [Field K]

theorem sqTheta_wf (X : ThPt K) : X.sqTheta = ⟨wf 0 X X, wf 1 X X, wf 2 X X, wf 3 X X⟩ := by
  simp only [ThPt.sqTheta, ThPt.had, wf, ThPt.mk.injEq]
  refine ⟨?_, ?_, ?_, ?_⟩ <;> ring

private theorem quad0 (N M O : ThPt K) :
    2 * (wf 0 N M * wf 0 O O) = -(wf 0 N O * wf 0 M O) + wf 1 N O * wf 1 M O + wf 2 N O * wf 2 M O
      + wf 3 N O * wf 3 M O + (wf 4 N O * wf 4 M O + wf 5 N O * wf 5 M O)
      + (wf 6 N O * wf 6 M O + wf 7 N O * wf 7 M O) + (wf 8 N O * wf 8 M O + wf 9 N O * wf 9 M O) := by
  simp only [wf]; ring

private theorem quad1 (N M O : ThPt K) :
    2 * (wf 1 N M * wf 1 O O) = wf 0 N O * wf 0 M O - wf 1 N O * wf 1 M O + wf 2 N O * wf 2 M O
      + wf 3 N O * wf 3 M O - (wf 4 N O * wf 4 M O + wf 5 N O * wf 5 M O)
      + (wf 6 N O * wf 6 M O + wf 7 N O * wf 7 M O) - (wf 8 N O * wf 8 M O + wf 9 N O * wf 9 M O) := by
  simp only [wf]; ring

private theorem quad2 (N M O : ThPt K) :
    2 * (wf 2 N M * wf 2 O O) = wf 0 N O * wf 0 M O + wf 1 N O * wf 1 M O - wf 2 N O * wf 2 M O
      + wf 3 N O * wf 3 M O + (wf 4 N O * wf 4 M O + wf 5 N O * wf 5 M O)
      - (wf 6 N O * wf 6 M O + wf 7 N O * wf 7 M O) - (wf 8 N O * wf 8 M O + wf 9 N O * wf 9 M O) := by
  simp only [wf]; ring

private theorem quad3 (N M O : ThPt K) :
    2 * (wf 3 N M * wf 3 O O) = wf 0 N O * wf 0 M O + wf 1 N O * wf 1 M O + wf 2 N O * wf 2 M O
      - wf 3 N O * wf 3 M O - (wf 4 N O * wf 4 M O + wf 5 N O * wf 5 M O)
      - (wf 6 N O * wf 6 M O + wf 7 N O * wf 7 M O) + (wf 8 N O * wf 8 M O + wf 9 N O * wf 9 M O) := by
  simp only [wf]; ring

private theorem cross (S D : ThPt K) :
    wf 0 S S * wf 1 D D + wf 1 S S * wf 0 D D = 2 * (wf 2 S D * wf 3 S D + wf 6 S D * wf 7 S D) ∧
    wf 2 S S * wf 3 D D + wf 3 S S * wf 2 D D = 2 * (wf 0 S D * wf 1 S D - wf 6 S D * wf 7 S D) ∧
    wf 0 S S * wf 2 D D + wf 2 S S * wf 0 D D = 2 * (wf 1 S D * wf 3 S D + wf 4 S D * wf 5 S D) ∧
    wf 1 S S * wf 3 D D + wf 3 S S * wf 1 D D = 2 * (wf 0 S D * wf 2 S D - wf 4 S D * wf 5 S D) ∧
    wf 0 S S * wf 3 D D + wf 3 S S * wf 0 D D = 2 * (wf 1 S D * wf 2 S D + wf 8 S D * wf 9 S D) ∧
    wf 1 S S * wf 2 D D + wf 2 S S * wf 1 D D = 2 * (wf 0 S D * wf 3 S D - wf 8 S D * wf 9 S D) := by
  simp only [wf]
  refine ⟨?_, ?_, ?_, ?_, ?_, ?_⟩ <;> ring

private theorem prods (X : ThPt K) :
    wf 6 X X * wf 7 X X = wf 0 X X * wf 1 X X - wf 2 X X * wf 3 X X ∧
    wf 4 X X * wf 5 X X = wf 0 X X * wf 2 X X - wf 1 X X * wf 3 X X ∧
    wf 8 X X * wf 9 X X = wf 0 X X * wf 3 X X - wf 1 X X * wf 2 X X := by
  simp only [wf]
  refine ⟨?_, ?_, ?_⟩ <;> ring

/-- One of the six relations of the codomain that mix two pairs of coordinates. -/
private theorem mixed {k0 k1 k2 k3 kp km W0 W1 W2 W3 Wp Wm g0 g1 g2 g3 gp gm f0 f1 f2 f3 fp fm
    s0 s1 s2 s3 d0 d1 d2 d3 C0 C1 C2 C3 c l ε : K}
    (n0 : k0 ≠ 0) (n1 : k1 ≠ 0) (n2 : k2 ≠ 0) (n3 : k3 ≠ 0) (np : kp ≠ 0) (nm : km ≠ 0)
    (hl : l ≠ 0) (c0 : C0 ^ 2 = l * k0) (c1 : C1 ^ 2 = l * k1) (c2 : C2 ^ 2 = l * k2) (c3 : C3 ^ 2 = l * k3)
    (hk : kp * km = k0 * k1 - k2 * k3) (hg : gp * gm = g0 * g1 - g2 * g3) (hf : fp * fm = f0 * f1 - f2 * f3)
    (w0 : W0 * k0 = c * (g0 * f0)) (w1 : W1 * k1 = c * (g1 * f1)) (w2 : W2 * k2 = c * (g2 * f2))
    (w3 : W3 * k3 = c * (g3 * f3)) (wp : Wp * kp = c * (gp * fp)) (wm : Wm * km = c * (gm * fm))
    (ea : s0 * d1 + s1 * d0 = 2 * (W2 * W3 + Wp * Wm)) (eb : s2 * d3 + s3 * d2 = 2 * (W0 * W1 - Wp * Wm))
    (hε : ε ^ 2 = 1) :
    (s0 / C0 * (d1 / C1) + s1 / C1 * (d0 / C0) + ε * (s2 / C2 * (d3 / C3) + s3 / C3 * (d2 / C2)))
      * (C0 * C1 + C1 * C0 + ε * (C2 * C3 + C3 * C2)) =
    c ^ 2 * l ^ 2 *
      ((g0 / C0 * (g1 / C1) + g1 / C1 * (g0 / C0) + ε * (g2 / C2 * (g3 / C3) + g3 / C3 * (g2 / C2)))
      * (f0 / C0 * (f1 / C1) + f1 / C1 * (f0 / C0) + ε * (f2 / C2 * (f3 / C3) + f3 / C3 * (f2 / C2)))) := by
  have z : ∀ {C k : K}, C ^ 2 = l * k → k ≠ 0 → C ≠ 0 := by
    intro C k e hk h0
    rw [h0] at e
    exact mul_ne_zero hl hk (by rw [← e]; ring)
  have z0 := z c0 n0; have z1 := z c1 n1; have z2 := z c2 n2; have z3 := z c3 n3
  -- everything depends only on the products over the pairs
  have ca : (C0 * C1) ^ 2 = l ^ 2 * (k0 * k1) := by rw [mul_pow, c0, c1]; ring
  have cb : (C2 * C3) ^ 2 = l ^ 2 * (k2 * k3) := by rw [mul_pow, c2, c3]; ring
  have wa : W0 * W1 * (k0 * k1) = c ^ 2 * ((g0 * g1) * (f0 * f1)) := by
    linear_combination (W1 * k1) * w0 + c * (g0 * f0) * w1
  have wb : W2 * W3 * (k2 * k3) = c ^ 2 * ((g2 * g3) * (f2 * f3)) := by
    linear_combination (W3 * k3) * w2 + c * (g2 * f2) * w3
  have ww : Wp * Wm * (k0 * k1 - k2 * k3) = c ^ 2 * ((g0 * g1 - g2 * g3) * (f0 * f1 - f2 * f3)) := by
    rw [← hk, ← hg, ← hf]; linear_combination (Wm * km) * wp + c * (gp * fp) * wm
  have nk : k0 * k1 - k2 * k3 ≠ 0 := by rw [← hk]; exact mul_ne_zero np nm
  have za := mul_ne_zero z0 z1
  have zb := mul_ne_zero z2 z3
  have e1 : s0 / C0 * (d1 / C1) + s1 / C1 * (d0 / C0) = (s0 * d1 + s1 * d0) / (C0 * C1) := by
    field_simp
  have e2 : s2 / C2 * (d3 / C3) + s3 / C3 * (d2 / C2) = (s2 * d3 + s3 * d2) / (C2 * C3) := by
    field_simp
  have e3 : ∀ a b C D : K, C ≠ 0 → D ≠ 0 → a / C * (b / D) + b / D * (a / C) = 2 * (a * b) / (C * D) := by
    intro a b C D h h'; field_simp; ring
  rw [e1, e2, ea, eb, e3 g0 g1 _ _ z0 z1, e3 g2 g3 _ _ z2 z3, e3 f0 f1 _ _ z0 z1, e3 f2 f3 _ _ z2 z3,
    mul_comm C1 C0, mul_comm C3 C2]
  have na := mul_ne_zero n0 n1
  have nb := mul_ne_zero n2 n3
  generalize C0 * C1 = A at *
  generalize C2 * C3 = B at *
  generalize g0 * g1 = ga at *
  generalize g2 * g3 = gb at *
  generalize f0 * f1 = fa at *
  generalize f2 * f3 = fb at *
  generalize W0 * W1 = Wa at *
  generalize W2 * W3 = Wb at *
  generalize Wp * Wm = WW at *
  generalize k0 * k1 = ka at *
  generalize k2 * k3 = kb at *
  have a2 : ka = A ^ 2 / l ^ 2 := by rw [ca]; field_simp
  have b2 : kb = B ^ 2 / l ^ 2 := by rw [cb]; field_simp
  have hAB : A ^ 2 - B ^ 2 ≠ 0 := by rw [ca, cb, ← mul_sub]; exact mul_ne_zero (pow_ne_zero 2 hl) nk
  have Wa' : Wa = c ^ 2 * l ^ 2 * (ga * fa) / A ^ 2 := by
    rw [eq_div_iff (pow_ne_zero 2 za)]; linear_combination l ^ 2 * wa + Wa * ca
  have Wb' : Wb = c ^ 2 * l ^ 2 * (gb * fb) / B ^ 2 := by
    rw [eq_div_iff (pow_ne_zero 2 zb)]; linear_combination l ^ 2 * wb + Wb * cb
  have WW' : WW = c ^ 2 * l ^ 2 * ((ga - gb) * (fa - fb)) / (A ^ 2 - B ^ 2) := by
    rw [eq_div_iff hAB]; linear_combination l ^ 2 * ww + WW * ca - WW * cb
  rw [Wa', Wb', WW']
  rcases mul_self_eq_one_iff.mp (by rw [← pow_two, hε] : ε * ε = 1) with rfl | rfl
  · field_simp
    ring
  · field_simp
    ring

/-- There is a point related to `X` like its double. -/
def HasDbl (O X : ThPt K) : Prop := ∃ N, ∀ j, wf j N O * wf j O O = 4 * wf j X X ^ 2

theorem HasDbl.of_kummer {O X : ThPt K} (hO : ThNull O) (hX : OnKummer O X) : HasDbl O X :=
  ⟨dblv O X, wf_dblv hO hX⟩

theorem HasDbl.of_riem {O X N : ThPt K} (h : Riem O X X N O) : HasDbl O X := by
  obtain ⟨c, hc, h⟩ := h
  refine ⟨N.scale (4 / c), fun j => ?_⟩
  rw [wf_scale_left, mul_assoc, h j, div_mul_eq_mul_div, div_eq_iff hc]; ring

/-- **Isogenies carry the relation over.** -/
theorem Riem.iso (h2 : (2 : K) ≠ 0) {O X Y S D C : ThPt K} {l : K} (h : Riem O X Y S D) (hO : O.sqTheta.NZ)
    (h6 : SixNZ O) (hX : HasDbl O X) (hY : HasDbl O Y) (hC : DualOf O C l) :
    Riem C (X.sqTheta.div C) (Y.sqTheta.div C) (S.sqTheta.div C) (D.sqTheta.div C) := by
  obtain ⟨c, hc, h⟩ := h
  have hl := hC.ne
  have z := hC.nz hO
  obtain ⟨N, hN⟩ := hX
  obtain ⟨N', hN'⟩ := hY
  have n : ∀ j, wf j O O ≠ 0 := by
    obtain ⟨d0, d1, d2, d3⟩ := hO
    rw [sqTheta_wf] at d0 d1 d2 d3
    intro j; fin_cases j
    exacts [d0, d1, d2, d3, h6.h4, h6.h5, h6.h6, h6.h7, h6.h8, h6.h9]
  -- squares of the forms of sum and difference
  have sq : ∀ j, 16 * (wf j S D * wf j S D) = c ^ 2 * (wf j N O * wf j N' O) := by
    intro j
    apply mul_right_cancel₀ (mul_ne_zero (n j) (n j))
    linear_combination 16 * (wf j S D * wf j O O) * h j + 16 * c * (wf j X X * wf j Y Y) * h j
      - c ^ 2 * (wf j N' O * wf j O O) * hN j - c ^ 2 * 4 * (wf j X X) ^ 2 * hN' j
  have c0 := hC.X; have c1 := hC.Y; have c2 := hC.Z; have c3 := hC.T
  rw [sqTheta_wf] at c0 c1 c2 c3
  simp only at c0 c1 c2 c3
  have q0 : 16 * (wf 0 S S * wf 0 D D) = c ^ 2 * (wf 0 N N' * wf 0 O O) := by
    apply mul_left_cancel₀ h2
    linear_combination 16 * quad0 S S D - c ^ 2 * quad0 N N' O
      - sq 0 + sq 1 + sq 2 + sq 3 + sq 4 + sq 5 + sq 6 + sq 7 + sq 8 + sq 9
  have q1 : 16 * (wf 1 S S * wf 1 D D) = c ^ 2 * (wf 1 N N' * wf 1 O O) := by
    apply mul_left_cancel₀ h2
    linear_combination 16 * quad1 S S D - c ^ 2 * quad1 N N' O
      + sq 0 - sq 1 + sq 2 + sq 3 - sq 4 - sq 5 + sq 6 + sq 7 - sq 8 - sq 9
  have q2 : 16 * (wf 2 S S * wf 2 D D) = c ^ 2 * (wf 2 N N' * wf 2 O O) := by
    apply mul_left_cancel₀ h2
    linear_combination 16 * quad2 S S D - c ^ 2 * quad2 N N' O
      + sq 0 + sq 1 - sq 2 + sq 3 + sq 4 + sq 5 - sq 6 - sq 7 - sq 8 - sq 9
  have q3 : 16 * (wf 3 S S * wf 3 D D) = c ^ 2 * (wf 3 N N' * wf 3 O O) := by
    apply mul_left_cancel₀ h2
    linear_combination 16 * quad3 S S D - c ^ 2 * quad3 N N' O
      + sq 0 + sq 1 + sq 2 - sq 3 - sq 4 - sq 5 - sq 6 - sq 7 + sq 8 + sq 9
  refine ⟨c ^ 2 * l ^ 2, mul_ne_zero (pow_ne_zero 2 hc) (pow_ne_zero 2 hl), ?_⟩
  obtain ⟨x01, x23, x02, x13, x03, x12⟩ := cross S D
  obtain ⟨k67, k45, k89⟩ := prods O
  obtain ⟨g67, g45, g89⟩ := prods X
  obtain ⟨f67, f45, f89⟩ := prods Y
  have n0 := n 0; have n1 := n 1; have n2 := n 2; have n3 := n 3
  have m4 : ∀ ε : K, ε ^ 2 = 1 → _ := fun ε hε => mixed (ε := ε) n0 n1 n2 n3 (n 6) (n 7) hl c0 c1 c2 c3 k67 g67 f67
    (h 0) (h 1) (h 2) (h 3) (h 6) (h 7) x01 x23 hε
  have m6 : ∀ ε : K, ε ^ 2 = 1 → _ := fun ε hε => mixed (ε := ε) n0 n2 n1 n3 (n 4) (n 5) hl c0 c2 c1 c3 k45 g45 f45
    (h 0) (h 2) (h 1) (h 3) (h 4) (h 5) x02 x13 hε
  have m8 : ∀ ε : K, ε ^ 2 = 1 → _ := fun ε hε => mixed (ε := ε) n0 n3 n1 n2 (n 8) (n 9) hl c0 c3 c1 c2 k89 g89 f89
    (h 0) (h 3) (h 1) (h 2) (h 8) (h 9) x03 x12 hε
  -- the diagonal relations
  have dd : ∀ V M : ThPt K, (∀ j, wf j M O * wf j O O = 4 * wf j V V ^ 2) → ∀ j, wf j M O = 4 * (wf j V V * wf j V V / wf j O O) := by
    intro V M hM j
    rw [← mul_div_assoc, eq_div_iff (n j), hM j]; ring
  have dx : ∀ V M : ThPt K, (∀ j, wf j M O * wf j O O = 4 * wf j V V ^ 2) →
      M.X * O.X = wf 0 V V * wf 0 V V / wf 0 O O + wf 1 V V * wf 1 V V / wf 1 O O
      + wf 2 V V * wf 2 V V / wf 2 O O + wf 3 V V * wf 3 V V / wf 3 O O := by
    intro V M hM
    have e : wf 0 M O + wf 1 M O + wf 2 M O + wf 3 M O = 4 * (M.X * O.X) := by simp only [wf]; ring
    rw [dd V M hM, dd V M hM, dd V M hM, dd V M hM] at e
    exact mul_left_cancel₀ (four_ne h2) (by linear_combination -e)
  have dy : ∀ V M : ThPt K, (∀ j, wf j M O * wf j O O = 4 * wf j V V ^ 2) →
      M.Y * O.Y = wf 0 V V * wf 0 V V / wf 0 O O - wf 1 V V * wf 1 V V / wf 1 O O
      + wf 2 V V * wf 2 V V / wf 2 O O - wf 3 V V * wf 3 V V / wf 3 O O := by
    intro V M hM
    have e : wf 0 M O - wf 1 M O + wf 2 M O - wf 3 M O = 4 * (M.Y * O.Y) := by simp only [wf]; ring
    rw [dd V M hM, dd V M hM, dd V M hM, dd V M hM] at e
    exact mul_left_cancel₀ (four_ne h2) (by linear_combination -e)
  have dz : ∀ V M : ThPt K, (∀ j, wf j M O * wf j O O = 4 * wf j V V ^ 2) →
      M.Z * O.Z = wf 0 V V * wf 0 V V / wf 0 O O + wf 1 V V * wf 1 V V / wf 1 O O
      - wf 2 V V * wf 2 V V / wf 2 O O - wf 3 V V * wf 3 V V / wf 3 O O := by
    intro V M hM
    have e : wf 0 M O + wf 1 M O - wf 2 M O - wf 3 M O = 4 * (M.Z * O.Z) := by simp only [wf]; ring
    rw [dd V M hM, dd V M hM, dd V M hM, dd V M hM] at e
    exact mul_left_cancel₀ (four_ne h2) (by linear_combination -e)
  have dt : ∀ V M : ThPt K, (∀ j, wf j M O * wf j O O = 4 * wf j V V ^ 2) →
      M.T * O.T = wf 0 V V * wf 0 V V / wf 0 O O - wf 1 V V * wf 1 V V / wf 1 O O
      - wf 2 V V * wf 2 V V / wf 2 O O + wf 3 V V * wf 3 V V / wf 3 O O := by
    intro V M hM
    have e : wf 0 M O - wf 1 M O - wf 2 M O + wf 3 M O = 4 * (M.T * O.T) := by simp only [wf]; ring
    rw [dd V M hM, dd V M hM, dd V M hM, dd V M hM] at e
    exact mul_left_cancel₀ (four_ne h2) (by linear_combination -e)
  have uu : ∀ a b k A : K, A ≠ 0 → A ^ 2 = l * k → a / A * (b / A) = l⁻¹ * (a * b / k) := by
    intro a b k A hA e
    have hk : k ≠ 0 := by
      intro h0; rw [h0, mul_zero] at e; exact pow_ne_zero 2 hA e
    rw [div_mul_div_comm, ← pow_two, e]; field_simp
  have r : ∀ a b k N : K, k ≠ 0 → 16 * (a * b) = c ^ 2 * (N * k) → 16 * (a * b / k) = c ^ 2 * N := by
    intro a b k N hk e
    rw [← mul_div_assoc, e]; field_simp
  have r0 := r _ _ _ _ n0 q0
  have r1 := r _ _ _ _ n1 q1
  have r2 := r _ _ _ _ n2 q2
  have r3 := r _ _ _ _ n3 q3
  have fin : ∀ w v k g g' f f' o : K, 16 * w = c ^ 2 * v → v = 4 * (g * f) → k = l * (4 * o ^ 2) →
      g * o = g' → f * o = f' → l⁻¹ * w * k = c ^ 2 * l ^ 2 * (l⁻¹ * g' * (l⁻¹ * f')) := by
    intro w v k g g' f f' o e1 e2 e3 e4 e5
    have hw : 4 * w = c ^ 2 * (g * f) := by
      have h4 := four_ne h2
      apply mul_left_cancel₀ h4
      linear_combination e1 + c ^ 2 * e2
    rw [e3, ← e4, ← e5]
    field_simp
    linear_combination o ^ 2 * hw
  rw [sqTheta_wf X, sqTheta_wf Y, sqTheta_wf S, sqTheta_wf D]
  have C0 := z.X; have C1 := z.Y; have C2 := z.Z; have C3 := z.T
  have kk : C.X * C.X = l * wf 0 O O ∧ C.Y * C.Y = l * wf 1 O O ∧ C.Z * C.Z = l * wf 2 O O ∧ C.T * C.T = l * wf 3 O O := by
    refine ⟨?_, ?_, ?_, ?_⟩ <;> rw [← pow_two] <;> assumption
  have dxX := dx X N hN; have dxY := dx Y N' hN'; have dyX := dy X N hN; have dyY := dy Y N' hN'
  have dzX := dz X N hN; have dzY := dz Y N' hN'; have dtX := dt X N hN; have dtY := dt Y N' hN'
  have oo : wf 0 O O + wf 1 O O + wf 2 O O + wf 3 O O = 4 * O.X ^ 2 ∧
      wf 0 O O - wf 1 O O + wf 2 O O - wf 3 O O = 4 * O.Y ^ 2 ∧
      wf 0 O O + wf 1 O O - wf 2 O O - wf 3 O O = 4 * O.Z ^ 2 ∧
      wf 0 O O - wf 1 O O - wf 2 O O + wf 3 O O = 4 * O.T ^ 2 := by
    simp only [wf]; refine ⟨?_, ?_, ?_, ?_⟩ <;> ring
  obtain ⟨o0, o1, o2, o3⟩ := oo
  obtain ⟨kk0, kk1, kk2, kk3⟩ := kk
  clear h n sq q0 q1 q2 q3 x01 x23 x02 x13 x03 x12 k67 k45 k89 g67 g45 g89 f67 f45 f89 dd dx dy dz dt r hN hN' hC h6 hO
  generalize wf 0 X X = g0 at *
  generalize wf 1 X X = g1 at *
  generalize wf 2 X X = g2 at *
  generalize wf 3 X X = g3 at *
  generalize wf 0 Y Y = f0 at *
  generalize wf 1 Y Y = f1 at *
  generalize wf 2 Y Y = f2 at *
  generalize wf 3 Y Y = f3 at *
  generalize wf 0 S S = s0 at *
  generalize wf 1 S S = s1 at *
  generalize wf 2 S S = s2 at *
  generalize wf 3 S S = s3 at *
  generalize wf 0 D D = e0 at *
  generalize wf 1 D D = e1 at *
  generalize wf 2 D D = e2 at *
  generalize wf 3 D D = e3 at *
  generalize wf 0 O O = k0 at *
  generalize wf 1 O O = k1 at *
  generalize wf 2 O O = k2 at *
  generalize wf 3 O O = k3 at *
  have one : (1 : K) ^ 2 = 1 := one_pow 2
  have mone : (-1 : K) ^ 2 = 1 := by ring
  simp only [wf] at r0 r1 r2 r3
  intro j
  fin_cases j
  · simp only [wf, ThPt.div, uu _ _ _ _ C0 c0, uu _ _ _ _ C1 c1, uu _ _ _ _ C2 c2, uu _ _ _ _ C3 c3, kk0, kk1, kk2, kk3]
    have := fin (s0*e0/k0 + s1*e1/k1 + s2*e2/k2 + s3*e3/k3) (4 * (N.X * N'.X)) (l*k0+l*k1+l*k2+l*k3) _ _ _ _ O.X
      (by linear_combination r0 + r1 + r2 + r3) rfl (by linear_combination l * o0) dxX dxY
    linear_combination this
  · simp only [wf, ThPt.div, uu _ _ _ _ C0 c0, uu _ _ _ _ C1 c1, uu _ _ _ _ C2 c2, uu _ _ _ _ C3 c3, kk0, kk1, kk2, kk3]
    have := fin (s0*e0/k0 - s1*e1/k1 + s2*e2/k2 - s3*e3/k3) (4 * (N.Y * N'.Y)) (l*k0-l*k1+l*k2-l*k3) _ _ _ _ O.Y
      (by linear_combination r0 - r1 + r2 - r3) rfl (by linear_combination l * o1) dyX dyY
    linear_combination this
  · simp only [wf, ThPt.div, uu _ _ _ _ C0 c0, uu _ _ _ _ C1 c1, uu _ _ _ _ C2 c2, uu _ _ _ _ C3 c3, kk0, kk1, kk2, kk3]
    have := fin (s0*e0/k0 + s1*e1/k1 - s2*e2/k2 - s3*e3/k3) (4 * (N.Z * N'.Z)) (l*k0+l*k1-l*k2-l*k3) _ _ _ _ O.Z
      (by linear_combination r0 + r1 - r2 - r3) rfl (by linear_combination l * o2) dzX dzY
    linear_combination this
  · simp only [wf, ThPt.div, uu _ _ _ _ C0 c0, uu _ _ _ _ C1 c1, uu _ _ _ _ C2 c2, uu _ _ _ _ C3 c3, kk0, kk1, kk2, kk3]
    have := fin (s0*e0/k0 - s1*e1/k1 - s2*e2/k2 + s3*e3/k3) (4 * (N.T * N'.T)) (l*k0-l*k1-l*k2+l*k3) _ _ _ _ O.T
      (by linear_combination r0 - r1 - r2 + r3) rfl (by linear_combination l * o3) dtX dtY
    linear_combination this
  · simp only [wf, ThPt.div]; linear_combination m4 1 one
  · simp only [wf, ThPt.div]; linear_combination m4 (-1) mone
  · simp only [wf, ThPt.div]; linear_combination m6 1 one
  · simp only [wf, ThPt.div]; linear_combination m6 (-1) mone
  · simp only [wf, ThPt.div]; linear_combination m8 1 one
  · simp only [wf, ThPt.div]; linear_combination m8 (-1) mone

/-- The isogeny of the chain carries the relation over. -/
theorem Riem.isoImage (h2 : (2 : K) ≠ 0) {O X Y S D T1 T2 : ThPt K} (h : Riem O X Y S D) (hO : O.sqTheta.NZ)
    (h6 : SixNZ O) (hk : KerDual O T1 T2) (hX : HasDbl O X) (hY : HasDbl O Y) :
    Riem (isoNull O T1 T2) (isoImage O T1 T2 X) (isoImage O T1 T2 Y) (isoImage O T1 T2 S)
      (isoImage O T1 T2 D) := by
  rw [isoImage_eq' hO hk, isoImage_eq' hO hk, isoImage_eq' hO hk, isoImage_eq' hO hk]
  exact (h.iso h2 hO h6 hX hY hk).had

theorem HasDbl.isoImage (h2 : (2 : K) ≠ 0) {O X T1 T2 : ThPt K} (hO : O.sqTheta.NZ) (h6 : SixNZ O) (hk : KerDual O T1 T2)
    (hX : HasDbl O X) : HasDbl (isoNull O T1 T2) (isoImage O T1 T2 X) := by
  have h := hX
  obtain ⟨N, hN⟩ := h
  have hr : Riem O X X N O := ⟨4, four_ne h2, fun j => by rw [hN j, pow_two]⟩
  exact HasDbl.of_riem ((hr.isoImage h2 hO h6 hk hX hX).same (.refl _) (.refl _) (.refl _) (.refl _)
    (isoImage_null' hO hk).symm)

end Festa
