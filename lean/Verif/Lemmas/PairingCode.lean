import Verif.Model.Pairing
import Verif.Lemmas.WeilBasis
/-!
`eval_line`, the Miller loop, `tate_pairing` and `weil_pairing` compute `mil` and `we`.
-/
namespace Festa
open WeierstrassCurve.Affine
variable {K : Type*} [Field K] [DecidableEq K]

omit [DecidableEq K] in
theorem toXY_some {A x y : K} {k : (mont A).Nonsingular x y} {P : Pt K}
    (h : PRep P (.some x y k : MPoint A)) : P.toXY = (x, y) := by
  obtain ⟨hz, hx, hy⟩ := h
  simp [Pt.toXY, hz, hx, hy]

omit [DecidableEq K] in
theorem isInf_false {A : K} {P : Pt K} {Q : MPoint A} (h : PRep P Q) [DecidableEq K] :
    P.isInf = true ↔ Q = 0 := by
  unfold Pt.isInf
  rcases Q with _ | ⟨x, y, k⟩
  · have h0 : P.Z = 0 := h
    simp [h0]; rfl
  · have h0 : P.Z ≠ 0 := h.1
    simp [h0]

theorem evalLine_spec {E : Crv K} (hE : E.Good) (chk : Bool) {v w r : Pt K} {V W X : MPoint E.A}
    (hv : PRep v V) (hw : PRep w W) (hr : PRep r X) (hV : V ≠ 0) (hW : W ≠ 0) (hX : X ≠ 0) :
    evalLine chk E v w r = some (r.Z * evalPt X (numC V W)) := by
  have iv : v.isInf = false := by
    rw [Bool.eq_false_iff]; exact fun h => hV ((isInf_false hv).mp h)
  have iw : w.isInf = false := by
    rw [Bool.eq_false_iff]; exact fun h => hW ((isInf_false hw).mp h)
  have eq1 := prep_equals hv hw
  have eq2 := prep_equals hv (prep_neg hw)
  rcases V with _ | ⟨x1, y1, k1⟩
  · exact absurd rfl hV
  rcases W with _ | ⟨x2, y2, k2⟩
  · exact absurd rfl hW
  rcases X with _ | ⟨x, y, k⟩
  · exact absurd rfl hX
  obtain ⟨rz, rx, ry⟩ := hr
  unfold evalLine
  dsimp only
  rw [toXY_some hv, toXY_some hw, iv, iw]
  simp only [Bool.or_self, Bool.and_false, Bool.false_eq_true, if_false]
  obtain ⟨k2', en⟩ := neg_pt k2
  rw [en] at eq2
  by_cases h1 : v.equals w = true
  · rw [if_pos h1]
    have hxy := eq1.mp h1
    injection hxy with ex ey
    subst ex; subst ey
    by_cases hy : y1 = 0
    · rw [if_pos hy]
      have e0 : numC (Point.some x1 y1 k1 : MPoint E.A) (.some x1 y1 k2) =
          WeierstrassCurve.Affine.CoordinateRing.XClass (mont E.A) x1 :=
        if_pos ⟨rfl, by rw [negY_mont, hy, neg_zero]⟩
      rw [e0, evalPt_X, rx]; congr 1; ring
    · rw [if_neg hy]
      have h2y : y1 ≠ (mont E.A).negY x1 y1 := by
        rw [negY_mont]
        intro h
        have : 2 * y1 = 0 := by linear_combination h
        exact hy ((mul_eq_zero.mp this).resolve_left hE.two)
      have e0 : numC (Point.some x1 y1 k1 : MPoint E.A) (.some x1 y1 k2) =
          WeierstrassCurve.Affine.CoordinateRing.YClass (mont E.A)
            (linePolynomial x1 y1 ((mont E.A).slope x1 x1 y1 y1)) := if_neg (fun h => h2y h.2)
      rw [e0, evalPt_Y, slope_of_Y_ne rfl h2y, rx, ry]
      have hd : y1 - (mont E.A).negY x1 y1 = 2 * y1 := by rw [negY_mont]; ring
      have hnum : 3 * x1 ^ 2 + 2 * (mont E.A).a₂ * x1 + (mont E.A).a₄ - (mont E.A).a₁ * y1 =
          3 * (x1 * x1) + 2 * (E.A * x1) + 1 := by simp only [mont]; ring
      rw [hd, hnum]; congr 1; ring
  · rw [if_neg h1]
    by_cases h2 : v.equals w.neg = true
    · rw [if_pos h2]
      have hxy := eq2.mp h2
      injection hxy with ex ey
      subst ex; subst ey
      have e0 : numC (Point.some x1 (-y2) k1 : MPoint E.A) (.some x1 y2 k2) =
          WeierstrassCurve.Affine.CoordinateRing.XClass (mont E.A) x1 :=
        if_pos ⟨rfl, by rw [negY_mont]⟩
      rw [e0, evalPt_X, rx]; congr 1; ring
    · rw [if_neg h2]
      have hx : x1 ≠ x2 := by
        rintro rfl
        rcases y_of_x_eq k1 k2 with rfl | rfl
        · exact h1 (eq1.mpr rfl)
        · exact h2 (eq2.mpr rfl)
      have e0 : numC (Point.some x1 y1 k1 : MPoint E.A) (.some x2 y2 k2) =
          WeierstrassCurve.Affine.CoordinateRing.YClass (mont E.A)
            (linePolynomial x1 y1 ((mont E.A).slope x1 x2 y1 y2)) := if_neg (fun h => hx h.1)
      have hl : (y2 - y1) / (x2 - x1) = (y1 - y2) / (x1 - x2) := by
        rw [← neg_sub y1, ← neg_sub x1, neg_div_neg_eq]
      rw [e0, evalPt_Y, slope_of_X_ne hx, rx, ry, hl]
      congr 1; ring

theorem millerStep_spec {E : Crv K} (hE : E.Good) (chk : Bool) (f : K) {v w s r : Pt K}
    {V W X : MPoint E.A} (hv : PRep v V) (hw : PRep w W) (hs : PRep s (V + W)) (hr : PRep r X)
    (hV : V ≠ 0) (hW : W ≠ 0) (hX : X ≠ 0) :
    millerStep chk E f v w s r = some (f * gv V W X) := by
  have hz : r.Z ≠ 0 := by
    rcases X with _ | ⟨x, y, k⟩
    · exact absurd rfl hX
    · exact hr.1
  unfold millerStep
  rw [evalLine_spec hE chk hv hw hr hV hW hX]
  dsimp only
  by_cases hS : s.isInf = true
  · rw [if_pos hS]
    have h0 := (isInf_false hs).mp hS
    have e1 : evalPt X (denC (0 : MPoint E.A)) = 1 := by
      rcases X with _ | ⟨x, y, k⟩
      · exact absurd rfl hX
      · exact evalPt_one k
    unfold gv
    rw [h0, e1, div_one]
    congr 1
    field_simp
  · rw [if_neg hS]
    have h0 : V + W ≠ 0 := fun h => hS ((isInf_false hs).mpr h)
    rw [evalLine_spec hE chk hs (prep_neg hs) hr h0 (neg_ne_zero.mpr h0) hX, numC_neg _ h0]
    dsimp only
    unfold gv
    congr 1
    rw [mul_left_comm, mul_div_mul_left _ _ hz, mul_div_assoc]

theorem shift_step (n t : Nat) : n >>> t = 2 * (n >>> (t + 1)) + (n.testBit t).toNat := by
  rw [Nat.shiftRight_succ, Nat.testBit_eq_decide_div_mod_eq, Nat.shiftRight_eq_div_pow]
  rcases Nat.mod_two_eq_zero_or_one (n / 2 ^ t) with h | h
  · simp [h]; omega
  · simp [h]; omega

theorem millerLoop_spec {E : Crv K} (hE : E.Good) (chk : Bool) {p r : Pt K} {P X : MPoint E.A}
    (hp : PRep p P) (hr : PRep r X) (hP : P ≠ 0) (hX : X ≠ 0) (n : Nat) (hc : ChainFree n P) :
    ∀ t (v : Pt K), t ≤ Nat.log2 n → 1 ≤ n >>> t → PRep v ((n >>> t) • P) →
      ∃ v', PRep v' (n • P) ∧
        millerLoop chk E p r n t (mil P X (n >>> t)) v = some (mil P X n, v') := by
  intro t
  induction t with
  | zero => intro v _ _ hv; exact ⟨v, by simpa using hv, by simp [millerLoop]⟩
  | succ t ih =>
    intro v ht h1 hv
    obtain ⟨c1, c2⟩ := hc (t + 1) (by omega) ht
    have hst := shift_step n t
    have hd : PRep (E.double v) ((n >>> (t + 1)) • P + (n >>> (t + 1)) • P) := by
      rw [← two_nsmul]; exact prep_double hE hv
    have e2 : (n >>> (t + 1)) • P + (n >>> (t + 1)) • P = (2 * (n >>> (t + 1))) • P := by
      rw [← add_nsmul, two_mul]
    have hs := millerStep_spec hE chk (mil P X (n >>> (t + 1)) * mil P X (n >>> (t + 1))) hv hv hd hr
      c1 c1 hX
    unfold millerLoop
    dsimp only
    rw [hs]
    dsimp only
    rw [← mil_even P X h1]
    rw [e2] at hd
    by_cases hb : n.testBit t = true
    · rw [if_pos hb]
      have c3 := c2 (by simpa using hb)
      have ha := prep_add hE hd hp
      rw [millerStep_spec hE chk _ hd hp ha hr c3 hP hX]
      dsimp only
      rw [← mil_odd P X h1]
      rw [hb, Bool.toNat_true] at hst
      rw [← succ_nsmul] at ha
      rw [← hst] at ha ⊢
      exact ih _ (by omega) (by omega) ha
    · rw [if_neg hb]
      rw [Bool.not_eq_true] at hb
      rw [hb, Bool.toNat_false, add_zero] at hst
      rw [← hst] at hd ⊢
      exact ih _ (by omega) (by omega) hd

theorem tatePairing_spec {E : Crv K} (hE : E.Good) (chk : Bool) {p r : Pt K} {P X : MPoint E.A}
    (hp : PRep p P) (hr : PRep r X) (n : Nat) (hn : 1 ≤ n) (h0 : n • P = 0) (hc : ChainFree n P)
    (hP : P ≠ 0) (hX : X ∉ AddSubgroup.zmultiples P) :
    tatePairing chk E p r n = some (mil P X n) := by
  have hX0 : X ≠ 0 := fun h => hX (h ▸ AddSubgroup.zero_mem _)
  have hl : n >>> Nat.log2 n = 1 := by
    rw [Nat.shiftRight_eq_div_pow]
    have h1 := Nat.log2_self_le (n := n) (by omega)
    have h2 := Nat.lt_log2_self (n := n)
    rw [pow_succ] at h2
    have hpos : 0 < 2 ^ n.log2 := by positivity
    apply Nat.le_antisymm
    · exact Nat.le_of_lt_succ ((Nat.div_lt_iff_lt_mul hpos).mpr (by omega))
    · exact (Nat.one_le_div_iff hpos).mpr h1
  obtain ⟨v', hv', e⟩ := millerLoop_spec hE chk hp hr hP hX0 n hc (Nat.log2 n) p le_rfl
    (by rw [hl]) (by rw [hl, one_nsmul]; exact hp)
  rw [hl, mil_one] at e
  unfold tatePairing
  rw [if_neg (by omega), e]
  dsimp only
  have hi : v'.isInf = true := (isInf_false hv').mpr h0
  rw [hi]
  simp only [Bool.not_true, Bool.and_false, Bool.false_eq_true, if_false]
  rw [if_neg (mil_ne hX n hn)]

theorem weilPairing_spec {E : Crv K} (hE : E.Good) (chk : Bool) {p q : Pt K} {P Q : MPoint E.A}
    (hp : PRep p P) (hq : PRep q Q) (n : Nat) (hn : 1 ≤ n) (hP : n • P = 0) (hQ : n • Q = 0)
    (cP : ChainFree n P) (cQ : ChainFree n Q) (nd : ND P Q) :
    weilPairing chk E p q n = some (we n P Q) := by
  unfold weilPairing
  rw [tatePairing_spec hE chk hp hq n hn hP cP nd.ne_left nd.2,
    tatePairing_spec hE chk hq hp n hn hQ cQ nd.ne_right nd.1]
  dsimp only
  unfold we
  rw [Nat.testBit_zero]
  rcases Nat.mod_two_eq_zero_or_one n with h | h
  · rw [(Nat.even_iff.mpr h).neg_one_pow, h]
    simp
  · rw [(Nat.odd_iff.mpr h).neg_one_pow, h]
    simp

theorem chainFree_of_order {H : Type*} [AddCommGroup H] {n : Nat} {P : H} (hn : 1 ≤ n)
    (h : addOrderOf P = n) : ChainFree n P := by
  intro t ht htl
  have h1 := Nat.log2_self_le (n := n) (by omega)
  have hle : 2 ^ t ≤ n := (Nat.pow_le_pow_right (by norm_num) htl).trans h1
  have hpos : 1 ≤ n >>> t := by
    rw [Nat.shiftRight_eq_div_pow]
    exact (Nat.one_le_div_iff (by positivity)).mpr hle
  have hst := shift_step n (t - 1)
  rw [Nat.sub_add_cancel ht] at hst
  have hle2 : n >>> (t - 1) ≤ n := by rw [Nat.shiftRight_eq_div_pow]; exact Nat.div_le_self _ _
  have key : ∀ k, 1 ≤ k → k < n → k • P ≠ 0 := by
    intro k h1 h2 h3
    have := addOrderOf_le_of_nsmul_eq_zero (by omega) h3
    omega
  refine ⟨key _ hpos (by omega), fun hb => key _ (by omega) ?_⟩
  rw [hb, Bool.toNat_true] at hst
  omega

theorem chainFree_neg {H : Type*} [AddCommGroup H] {n : Nat} {P : H} (h : ChainFree n P) :
    ChainFree n (-P) := by
  intro t ht htl
  obtain ⟨h1, h2⟩ := h t ht htl
  rw [neg_nsmul, neg_nsmul, neg_ne_zero, neg_ne_zero]
  exact ⟨h1, h2⟩

theorem IsBasis.order_left {H : Type*} [AddCommGroup H] {n : Nat} {P Q : H} (h : IsBasis n P Q) :
    addOrderOf P = n := by
  refine Nat.dvd_antisymm (addOrderOf_dvd_of_nsmul_eq_zero h.nsmul_left) ?_
  have := (h (addOrderOf P) 0).mp (by simp [addOrderOf_nsmul_eq_zero])
  exact Int.natCast_dvd_natCast.mp this.1

theorem IsBasis.order_right {H : Type*} [AddCommGroup H] {n : Nat} {P Q : H} (h : IsBasis n P Q) :
    addOrderOf Q = n := h.symm.order_left

/-- The first pairing of `bidlp`. -/
theorem bidlp_pairing_a {E : Crv K} (hE : E.Good) (chk : Bool) {p q r : Pt K} {P Q : MPoint E.A}
    {n a b : Nat} (hn : 2 ≤ n) (hb : IsBasis n P Q) (hp : PRep p P) (hq : PRep q Q)
    (hr : PRep r (a • P + b • Q)) (ha : ¬n ∣ a) (hc : ChainFree n (a • P + b • Q)) :
    weilPairing chk E p q n = some (we n P Q) ∧ we n P Q ^ n = 1 ∧
    weilPairing chk E r q n = some (we n P Q ^ a) := by
  have hPn := hb.nsmul_left
  have hQn := hb.nsmul_right
  have oP := chainFree_of_order (by omega) hb.order_left
  have oQ := chainFree_of_order (by omega) hb.order_right
  have h1 : ¬(n : Int) ∣ 1 := by exact_mod_cast not_dvd_lt (a := 1) le_rfl (by omega)
  have nPQ : ND Q P := by
    have := hb.indep.nd1 (a := 1) (b := 0) h1
    simpa using this
  have tR : n • (a • P + b • Q) = 0 := by
    have := hb.indep.tors a b
    simpa only [natCast_zsmul] using this
  have nQR : ND Q (a • P + b • Q) := by
    have := hb.indep.nd1 (a := a) (b := b) (fun h => ha (Int.natCast_dvd_natCast.mp h))
    simpa only [natCast_zsmul] using this
  -- reduce the coefficients
  have hma : a % n < n := Nat.mod_lt _ (by omega)
  have hma1 : 1 ≤ a % n := Nat.one_le_iff_ne_zero.mpr fun h => ha (Nat.dvd_of_mod_eq_zero h)
  have red : ∀ (T : MPoint E.A), n • T = 0 → ∀ k : Nat, k • T = (k % n) • T := by
    intro T hT k
    conv_lhs => rw [← Nat.mod_add_div k n]
    rw [add_nsmul, mul_comm, mul_nsmul', hT, nsmul_zero, add_zero]
  obtain ⟨w1, w2⟩ := hb.we_eq hE.two hE.disc hn (a % n) b hma1 hma
  rw [← red P hPn] at w1
  have s0 := we_symm (n := n) (by omega) nPQ.symm
  have s1 := we_symm (n := n) (by omega) nQR.symm
  rw [w1] at s1
  have u0 : we n Q P ≠ 0 := we_ne (by omega) nPQ
  have eu : we n P Q = (we n Q P)⁻¹ := eq_inv_of_mul_eq_one_left s0
  have pn : we n P Q ^ n = 1 := by rw [eu, inv_pow, w2, inv_one]
  have pm : ∀ k : Nat, we n P Q ^ k = we n P Q ^ (k % n) := by
    intro k
    conv_lhs => rw [← Nat.mod_add_div k n]
    rw [pow_add, pow_mul, pn, one_pow, mul_one]
  refine ⟨weilPairing_spec hE chk hp hq n (by omega) hPn hQn oP oQ nPQ.symm, pn, ?_⟩
  · rw [weilPairing_spec hE chk hr hq n (by omega) tR hQn hc oQ nQR.symm]
    rw [pm, eu, inv_pow]
    congr 1
    exact eq_inv_of_mul_eq_one_left s1

/-- The second pairing of `bidlp`. -/
theorem bidlp_pairing_b {E : Crv K} (hE : E.Good) (chk : Bool) {p r : Pt K} {P Q : MPoint E.A}
    {n a b : Nat} (hn : 2 ≤ n) (hb : IsBasis n P Q) (hp : PRep p P)
    (hr : PRep r (a • P + b • Q)) (hb0 : ¬n ∣ b) (hc : ChainFree n (a • P + b • Q)) :
    weilPairing chk E r p.neg n = some (we n P Q ^ b) := by
  have hPn := hb.nsmul_left
  have hQn := hb.nsmul_right
  have oP := chainFree_of_order (by omega) hb.order_left
  have oQ := chainFree_of_order (by omega) hb.order_right
  have h1 : ¬(n : Int) ∣ 1 := by exact_mod_cast not_dvd_lt (a := 1) le_rfl (by omega)
  have nPQ : ND Q P := by
    have := hb.indep.nd1 (a := 1) (b := 0) h1
    simpa using this
  have tR : n • (a • P + b • Q) = 0 := by
    have := hb.indep.tors a b
    simpa only [natCast_zsmul] using this
  -- reduce the coefficients
  have hmb : b % n < n := Nat.mod_lt _ (by omega)
  have hmb1 : 1 ≤ b % n := Nat.one_le_iff_ne_zero.mpr fun h => hb0 (Nat.dvd_of_mod_eq_zero h)
  have red : ∀ (T : MPoint E.A), n • T = 0 → ∀ k : Nat, k • T = (k % n) • T := by
    intro T hT k
    conv_lhs => rw [← Nat.mod_add_div k n]
    rw [add_nsmul, mul_comm, mul_nsmul', hT, nsmul_zero, add_zero]
  obtain ⟨-, w2⟩ := hb.we_eq hE.two hE.disc hn 1 0 le_rfl (by omega)
  have s0 := we_symm (n := n) (by omega) nPQ.symm
  have u0 : we n Q P ≠ 0 := we_ne (by omega) nPQ
  have eu : we n P Q = (we n Q P)⁻¹ := eq_inv_of_mul_eq_one_left s0
  have pn : we n P Q ^ n = 1 := by rw [eu, inv_pow, w2, inv_one]
  have pm : ∀ k : Nat, we n P Q ^ k = we n P Q ^ (k % n) := by
    intro k
    conv_lhs => rw [← Nat.mod_add_div k n]
    rw [pow_add, pow_mul, pn, one_pow, mul_one]
  · -- the basis (Q, -P)
    have hb' : IsBasis n Q (-P) := by
      intro x y
      rw [zsmul_neg, ← neg_zsmul, add_comm, hb (-y) x, dvd_neg, and_comm]
    obtain ⟨w3, w4⟩ := hb'.we_eq hE.two hE.disc hn (b % n) ((n - 1) * a) hmb1 hmb
    have eR : (b % n) • Q + ((n - 1) * a) • -P = a • P + b • Q := by
      rw [← red Q hQn, add_comm, neg_nsmul, mul_nsmul', ← neg_nsmul]
      congr 1
      have e : (n - 1) • -P = P := by
        have h5 : (n - 1) • P + P = 0 := by
          rw [← succ_nsmul, Nat.sub_add_cancel (by omega), hPn]
        rw [neg_nsmul]; exact neg_eq_of_add_eq_zero_right h5
      have e2 : (n - 1) • (a • -P) = a • ((n - 1) • -P) := by
        rw [← mul_nsmul', ← mul_nsmul', mul_comm]
      rw [← neg_nsmul, e2, e]
    rw [eR] at w3
    have nN : ND (-P) (a • P + b • Q) := by
      have := hb'.indep.nd1 (a := b) (b := -a) (fun h => hb0 (Int.natCast_dvd_natCast.mp h))
      rw [natCast_zsmul, neg_zsmul, zsmul_neg, neg_neg, natCast_zsmul, add_comm] at this
      exact this
    have nN2 : ND (-P) Q := by
      have := hb'.indep.nd1 (a := 1) (b := 0) h1
      simpa using this
    rw [weilPairing_spec hE chk hr (prep_neg hp) n (by omega) tR (by rw [neg_nsmul, hPn, neg_zero]) hc
      (chainFree_neg oP) nN.symm]
    have s2 := we_symm (n := n) (by omega) nN.symm
    rw [w3] at s2
    congr 1
    -- we(-P, Q) = 1 / we(P, Q)
    have s3 := we_neg (n := n) (by omega) nPQ hQn hPn
    have s4 := we_symm (n := n) (by omega) nN2
    have e5 : we n (-P) Q = (we n P Q)⁻¹ := by
      rw [eu, inv_inv]
      have : we n Q (-P) = (we n Q P)⁻¹ := eq_inv_of_mul_eq_one_right s3
      rw [this] at s4
      rw [← inv_inv (we n Q P)]
      exact eq_inv_of_mul_eq_one_left s4
    rw [e5, inv_pow] at s2
    rw [pm]
    have := eq_inv_of_mul_eq_one_left s2
    rwa [inv_inv] at this

/-- The two pairings of `bidlp`. -/
theorem bidlp_pairings {E : Crv K} (hE : E.Good) (chk : Bool) {p q r : Pt K} {P Q : MPoint E.A}
    {n a b : Nat} (hn : 2 ≤ n) (hb : IsBasis n P Q) (hp : PRep p P) (hq : PRep q Q)
    (hr : PRep r (a • P + b • Q)) (ha : ¬n ∣ a) (hb0 : ¬n ∣ b) (hc : ChainFree n (a • P + b • Q)) :
    weilPairing chk E p q n = some (we n P Q) ∧ we n P Q ^ n = 1 ∧
    weilPairing chk E r q n = some (we n P Q ^ a) ∧
    weilPairing chk E r p.neg n = some (we n P Q ^ b) := by
  obtain ⟨h1, h2, h3⟩ := bidlp_pairing_a hE chk hn hb hp hq hr ha hc
  exact ⟨h1, h2, h3, bidlp_pairing_b hE chk hn hb hp hr hb0 hc⟩

end Festa
