import Verif.Lemmas.PairingDeg
/-!
The pairing of two points one of which is a multiple of the other: it is one, as long as Miller's
loop does not run into the other point.
-/
namespace Festa
open WeierstrassCurve.Affine
variable {K : Type*} [Field K] [DecidableEq K] {A : K}

theorem InChain.self (n : Nat) : InChain n n := ⟨0, Or.inl rfl⟩

theorem InChain.half {n m : Nat} (h : InChain (n / 2) m) : InChain n m := by
  obtain ⟨t, h⟩ := h
  have e : ∀ t, (n / 2) >>> t = n >>> (t + 1) := by
    intro t
    rw [Nat.shiftRight_eq_div_pow, Nat.shiftRight_eq_div_pow, Nat.div_div_eq_div_mul, pow_succ,
      mul_comm]
  rw [e, e] at h
  exact ⟨t + 1, h⟩

theorem chain_induction' {n : Nat} {p : Nat → Prop} (hn : 1 ≤ n) (h1 : p 1)
    (he : ∀ k, 1 ≤ k → InChain n k → InChain n (2 * k) → p k → p (2 * k))
    (ho : ∀ k, 1 ≤ k → InChain n (2 * k) → InChain n (2 * k + 1) → p (2 * k) → p (2 * k + 1)) :
    p n := by
  have key : ∀ j, 1 ≤ j → (∀ m, InChain j m → InChain n m) → p j := by
    intro j
    induction j using Nat.strong_induction_on with
    | _ j ih =>
      intro hj hc
      by_cases h : j = 1
      · rw [h]; exact h1
      · have hh := ih (j / 2) (by omega) (by omega) (fun m hm => hc m hm.half)
        have hk : InChain n (j / 2) := hc _ (InChain.self _).half
        have h2 : InChain n (2 * (j / 2)) := hc _ ⟨0, Or.inr (by
          rw [Nat.shiftRight_eq_div_pow])⟩
        have hs := hc _ (InChain.self j)
        have := he (j / 2) (by omega) hk h2 hh
        rcases Nat.mod_two_eq_zero_or_one j with h0 | h0
        · have e : 2 * (j / 2) = j := by omega
          rwa [e] at this
        · have e : 2 * (j / 2) + 1 = j := by omega
          have := ho (j / 2) (by omega) h2 (by rwa [e]) this
          rwa [e] at this
  exact key n hn fun m hm => hm

theorem offChain_of_not_mem {n : Nat} {P X : MPoint A} (h : X ∉ AddSubgroup.zmultiples P) :
    OffChain n P X := fun m _ =>
  ne_of_sub (AddSubgroup.nsmul_mem _ (AddSubgroup.mem_zmultiples P) m) h

omit [DecidableEq K] in
theorem ap_den {S X : MPoint A} (h : X ≠ 0 ∧ X ≠ S ∧ X ≠ -S) : evalPt X (denC S) ≠ 0 :=
  Ap.den h

section
variable {P Q R X : MPoint A} {n : Nat}

theorem inChain_one (hn : 1 ≤ n) : InChain n 1 := by
  refine ⟨Nat.log2 n, Or.inl ?_⟩
  rw [Nat.shiftRight_eq_div_pow]
  have h1 := Nat.log2_self_le (n := n) (by omega)
  have h2 := Nat.lt_log2_self (n := n)
  rw [pow_succ] at h2
  have hpos : 0 < 2 ^ n.log2 := by positivity
  exact (Nat.le_antisymm (Nat.le_of_lt_succ ((Nat.div_lt_iff_lt_mul hpos).mpr (by omega)))
    ((Nat.one_le_div_iff hpos).mpr h1)).symm

/-- `mil_base_add` along a chain that does not meet `X`. -/
theorem mil_base_add' (hn : 1 ≤ n) (hQ : OffChain n Q X) (hR : OffChain n R X)
    (hS : OffChain n (Q + R) X) :
    mil (Q + R) X n * gv Q R X ^ n = mil Q X n * mil R X n * gv (n • Q) (n • R) X := by
  refine chain_induction' (n := n) (p := fun n => mil (Q + R) X n * gv Q R X ^ n =
    mil Q X n * mil R X n * gv (n • Q) (n • R) X) hn ?_ ?_ ?_
  · simp [mil_one]
  · intro k hk c1 c2 ih
    rw [mil_even _ _ hk, mil_even _ _ hk, mil_even _ _ hk]
    have e1 : k • Q + k • R = k • (Q + R) := (nsmul_add Q R k).symm
    have e2 : k • (Q + R) + k • (Q + R) = (2 * k) • (Q + R) := by rw [← add_nsmul, two_mul]
    have e3 : k • Q + k • Q = (2 * k) • Q := by rw [← add_nsmul, two_mul]
    have e4 : k • R + k • R = (2 * k) • R := by rw [← add_nsmul, two_mul]
    have h4 := gv_four (a := k • Q) (b := k • R) (c := k • Q) (d := k • R) (X := X)
      (by rw [e1]; exact (ap_den (hS k c1))) (by rw [e1]; exact (ap_den (hS k c1)))
      (by rw [e3]; exact (ap_den (hQ _ c2))) (by rw [e4]; exact (ap_den (hR _ c2)))
      (by rw [e1, e2]; exact (ap_den (hS _ c2)))
    rw [e1, e3, e4] at h4
    rw [pow_mul', sq]
    linear_combination (gv (k • (Q + R)) (k • (Q + R)) X) *
      (mil (Q + R) X k * gv Q R X ^ k + mil Q X k * mil R X k * gv (k • Q) (k • R) X) * ih +
      (mil Q X k * mil R X k) ^ 2 * h4
  · intro k hk c1 c2 ih
    rw [mil_odd _ _ hk, mil_odd _ _ hk, mil_odd _ _ hk]
    have e1 : (2 * k) • Q + (2 * k) • R = (2 * k) • (Q + R) := (nsmul_add Q R (2 * k)).symm
    have e2 : (2 * k) • (Q + R) + (Q + R) = (2 * k + 1) • (Q + R) := (succ_nsmul _ _).symm
    have e3 : (2 * k) • Q + Q = (2 * k + 1) • Q := (succ_nsmul _ _).symm
    have e4 : (2 * k) • R + R = (2 * k + 1) • R := (succ_nsmul _ _).symm
    have hS1 := ap_den (hS 1 (inChain_one hn))
    rw [one_nsmul] at hS1
    have h4 := gv_four (a := (2 * k) • Q) (b := (2 * k) • R) (c := Q) (d := R) (X := X)
      (by rw [e1]; exact (ap_den (hS _ c1))) hS1
      (by rw [e3]; exact (ap_den (hQ _ c2))) (by rw [e4]; exact (ap_den (hR _ c2)))
      (by rw [e1, e2]; exact (ap_den (hS _ c2)))
    rw [e1, e3, e4] at h4
    rw [pow_succ]
    linear_combination (gv ((2 * k) • (Q + R)) (Q + R) X * gv Q R X) * ih +
      (mil Q X (2 * k) * mil R X (2 * k)) * h4

/-- `mil_arg_add` along a chain that does not meet the three points. -/
theorem mil_arg_add' (hn : 1 ≤ n) (hQ : OffChain n P Q) (hR : OffChain n P R)
    (hS : OffChain n P (Q + R)) :
    mil P (Q + R) n * hv Q R P ^ n = -((-1) ^ n * (mil P Q n * mil P R n * hv Q R (n • P))) := by
  have i1 := inChain_one hn
  have rec' : ∀ k l, InChain n k → InChain n l → InChain n (k + l) →
      gv (k • P) (l • P) Q * gv (k • P) (l • P) R * hv Q R (k • P + l • P) =
        -(hv Q R (k • P) * hv Q R (l • P) * gv (k • P) (l • P) (Q + R)) := by
    intro k l hk hl hkl
    have e : k • P + l • P = (k + l) • P := (add_nsmul P k l).symm
    refine gv_recip' (hQ k hk).1 (hR k hk).1 (hS k hk).1 (hQ l hl) (hR l hl) (hS l hl) (hQ k hk)
      (hR k hk) (hS k hk) ?_ ?_ ?_
    · rw [e]; exact hQ _ hkl
    · rw [e]; exact hR _ hkl
    · rw [e]; exact hS _ hkl
  refine chain_induction' (n := n) (p := fun n => mil P (Q + R) n * hv Q R P ^ n =
    -((-1) ^ n * (mil P Q n * mil P R n * hv Q R (n • P)))) hn ?_ ?_ ?_
  · simp [mil_one]
  · intro k hk c1 c2 ih
    rw [mil_even _ _ hk, mil_even _ _ hk, mil_even _ _ hk]
    have h := rec' k k c1 c1 (by rwa [← two_mul])
    rw [← add_nsmul, ← two_mul] at h
    rw [pow_mul' (hv Q R P), pow_mul' (-1 : K), sq, sq]
    have h1 : ((-1 : K) ^ k) * (-1) ^ k = 1 := by rw [← mul_pow]; simp
    rw [h1, one_mul]
    linear_combination gv (k • P) (k • P) (Q + R) *
      (mil P (Q + R) k * hv Q R P ^ k - (-1) ^ k * (mil P Q k * mil P R k * hv Q R (k • P))) * ih +
      (mil P Q k * mil P R k) ^ 2 * h +
      (mil P Q k * mil P R k * hv Q R (k • P)) ^ 2 * gv (k • P) (k • P) (Q + R) * h1
  · intro k hk c1 c2 ih
    rw [mil_odd _ _ hk, mil_odd _ _ hk, mil_odd _ _ hk]
    have h := rec' (2 * k) 1 c1 i1 c2
    rw [one_nsmul, ← succ_nsmul] at h
    rw [pow_succ, pow_succ]
    linear_combination gv ((2 * k) • P) P (Q + R) * hv Q R P * ih -
      (-1) ^ (2 * k) * (mil P Q (2 * k) * mil P R (2 * k)) * h

/-- The pairing with a sum of two points outside the group of `P`, where the sum may lie in it. -/
theorem we_add' (hn : 1 ≤ n) (h1 : ND P Q) (h2 : ND P R) (h3 : OffChain n P (Q + R))
    (h3' : OffChain n (Q + R) P) (hP : n • P = 0) (hQ : n • Q = 0) (hR : n • R = 0) :
    mil P (Q + R) n ≠ 0 ∧ mil (Q + R) P n ≠ 0 ∧ we n P (Q + R) = we n P Q * we n P R := by
  have b := mil_base_add' hn (offChain_of_not_mem h1.1) (offChain_of_not_mem h2.1) h3'
  have a := mil_arg_add' hn (offChain_of_not_mem h1.2) (offChain_of_not_mem h2.2) h3
  rw [hQ, hR, gv_zero_left (by simpa using den_mult h1.1 0), mul_one] at b
  have e0 : hv Q R 0 = -1 := if_pos rfl
  rw [hP, hv_self h1.ne_left, e0] at a
  have k1 := mil_ne h1.1 n hn
  have k2 := mil_ne h2.1 n hn
  have j1 := mil_ne h1.2 n hn
  have j2 := mil_ne h2.2 n hn
  have g0 : mil (Q + R) P n * gv Q R P ^ n ≠ 0 := by
    rw [b]; exact mul_ne_zero k1 k2
  have k3 := left_ne_zero_of_mul g0
  have g0 := right_ne_zero_of_mul g0
  have k4 : mil P (Q + R) n ≠ 0 := by
    intro h
    rw [h, zero_mul] at a
    have : (-1 : K) ^ n * (mil P Q n * mil P R n * -1) ≠ 0 :=
      mul_ne_zero (pow_ne_zero _ (by simp)) (mul_ne_zero (mul_ne_zero j1 j2) (by simp))
    exact this (neg_eq_zero.mp a.symm)
  refine ⟨k4, k3, ?_⟩
  unfold we
  have h4 : ((-1 : K) ^ n) * (-1) ^ n = 1 := by rw [← mul_pow]; simp
  rw [div_mul_div_comm, div_eq_div_iff k3 (mul_ne_zero k1 k2), ← b]
  apply mul_right_cancel₀ (mul_ne_zero g0 g0)
  linear_combination (-1) ^ n * mil (Q + R) P n * gv Q R P ^ n * gv Q R P ^ n * a

/-- The pairing of two multiples of one vector of a basis. -/
theorem we_axis (h2 : (2 : K) ≠ 0) (hA : A * A ≠ 4) (hn : 2 ≤ n) (hb : IsBasis n P Q) (k : Nat)
    (h3 : OffChain n P (k • P)) (h3' : OffChain n (k • P) P) :
    mil P (k • P) n ≠ 0 ∧ mil (k • P) P n ≠ 0 ∧ we n P (k • P) = 1 := by
  have hPn := hb.nsmul_left
  have hQn := hb.nsmul_right
  have h1' : ¬(n : Int) ∣ 1 := by exact_mod_cast not_dvd_lt (a := 1) le_rfl (by omega)
  have nPQ : ND P Q := by
    have := hb.symm.indep.nd1 (a := 1) (b := 0) h1'
    simpa using this
  have hd : ¬(n : Int) ∣ (n - 1 : Nat) := not_dvd_lt (by omega) (by omega)
  have nPR : ND P ((n - 1) • Q + k • P) := by
    have := hb.symm.indep.nd1 (a := (n - 1 : Nat)) (b := k) hd
    simpa only [natCast_zsmul] using this
  have e : Q + ((n - 1) • Q + k • P) = k • P := by
    rw [← add_assoc, ← succ_nsmul', Nat.sub_add_cancel (by omega), hQn, zero_add]
  have tR : n • ((n - 1) • Q + k • P) = 0 := by
    have := hb.symm.indep.tors (n - 1 : Nat) k
    simpa only [natCast_zsmul] using this
  obtain ⟨a1, a2, a3⟩ := we_add' (by omega) nPQ nPR (by rwa [e]) (by rwa [e]) hPn hQn tR
  rw [e] at a1 a2 a3
  obtain ⟨w1, w2⟩ := hb.symm.we_eq h2 hA hn (n - 1) k (by omega) (by omega)
  refine ⟨a1, a2, ?_⟩
  rw [a3, w1, ← pow_succ', Nat.sub_add_cancel (by omega), w2]

end

/-- `tatePairing_spec` for points met by no multiple. -/
theorem tatePairing_off {E : Crv K} (hE : E.Good) (chk : Bool) {p r : Pt K} {P X : MPoint E.A}
    (hp : PRep p P) (hr : PRep r X) (n : Nat) (hn : 1 ≤ n) (h0 : n • P = 0) (hc : ChainFree n P)
    (hP : P ≠ 0) (hX0 : X ≠ 0) (hm : mil P X n ≠ 0) :
    tatePairing chk E p r n = some (mil P X n) := by
  have hl : n >>> Nat.log2 n = 1 := by
    rw [Nat.shiftRight_eq_div_pow]
    have h1 := Nat.log2_self_le (n := n) (by omega)
    have h2 := Nat.lt_log2_self (n := n)
    rw [pow_succ] at h2
    have hpos : 0 < 2 ^ n.log2 := by positivity
    apply Nat.le_antisymm
    · exact Nat.le_of_lt_succ ((Nat.div_lt_iff_lt_mul hpos).mpr (by omega))
    · exact (Nat.one_le_div_iff hpos).mpr h1
  obtain ⟨v', hv', e⟩ := millerLoop_spec hE chk hp hr hP hX0 n hc (Nat.log2 n) p le_rfl
    (by rw [hl]) (by rw [hl, one_nsmul]; exact hp)
  rw [hl, mil_one] at e
  unfold tatePairing
  rw [if_neg (by omega), e]
  dsimp only
  have hi : v'.isInf = true := (isInf_false hv').mpr h0
  rw [hi]
  simp only [Bool.not_true, Bool.and_false, Bool.false_eq_true, if_false]
  rw [if_neg hm]

/-- `weilPairing_spec` where Miller's loops do not vanish. -/
theorem weilPairing_off {E : Crv K} (hE : E.Good) (chk : Bool) {p q : Pt K} {P Q : MPoint E.A}
    (hp : PRep p P) (hq : PRep q Q) (n : Nat) (hn : 1 ≤ n) (hP : n • P = 0) (hQ : n • Q = 0)
    (cP : ChainFree n P) (cQ : ChainFree n Q) (P0 : P ≠ 0) (Q0 : Q ≠ 0) (h1 : mil P Q n ≠ 0)
    (h2 : mil Q P n ≠ 0) : weilPairing chk E p q n = some (we n P Q) := by
  unfold weilPairing
  rw [tatePairing_off hE chk hp hq n hn hP cP P0 Q0 h1,
    tatePairing_off hE chk hq hp n hn hQ cQ Q0 P0 h2]
  dsimp only
  unfold we
  rw [Nat.testBit_zero]
  rcases Nat.mod_two_eq_zero_or_one n with h | h
  · rw [(Nat.even_iff.mpr h).neg_one_pow, h]
    simp
  · rw [(Nat.odd_iff.mpr h).neg_one_pow, h]
    simp

/-- Reflecting all points changes the quotient of lines at most by a sign. -/
theorem gv_neg (V W : MPoint A) {X : MPoint A} (hX : X ≠ 0) :
    (gv (-V) (-W) (-X) = gv V W X ∨ gv (-V) (-W) (-X) = -gv V W X) ∧
      (V + W = 0 → gv (-V) (-W) (-X) = gv V W X) := by
  have den : ∀ S : MPoint A, evalPt (-X) (denC (-S)) = evalPt X (denC S) := by
    intro S
    rcases X with _ | ⟨x, y, k⟩
    · exact absurd rfl hX
    obtain ⟨k', e⟩ := neg_pt k
    rw [e]
    rcases S with _ | ⟨x', y', h⟩
    · change evalPt (.some x (-y) k') (1 : (mont A).CoordinateRing) = evalPt (.some x y k) 1
      rw [evalPt_one, evalPt_one]
    · obtain ⟨h', e'⟩ := neg_pt h
      rw [e', evalPt_den, evalPt_den]
  have num : (evalPt (-X) (numC (-V) (-W)) = evalPt X (numC V W) ∨
      evalPt (-X) (numC (-V) (-W)) = -evalPt X (numC V W)) ∧
      (V + W = 0 → evalPt (-X) (numC (-V) (-W)) = evalPt X (numC V W)) := by
    rcases V with _ | ⟨x1, y1, g1⟩
    · have e : evalPt (-X) (numC (-0) (-W)) = evalPt X (numC 0 W) := by
        rw [neg_zero]; exact den W
      exact ⟨Or.inl e, fun _ => e⟩
    rcases W with _ | ⟨x2, y2, g2⟩
    · have e : evalPt (-X) (numC (-(Point.some x1 y1 g1 : MPoint A)) (-0)) =
          evalPt X (numC (Point.some x1 y1 g1 : MPoint A) 0) := by
        rw [neg_zero, numC_comm_zero, numC_comm_zero]; exact den _
      exact ⟨Or.inl e, fun _ => e⟩
    by_cases h0 : (Point.some x1 y1 g1 : MPoint A) + .some x2 y2 g2 = 0
    · have eW : (Point.some x2 y2 g2 : MPoint A) = -.some x1 y1 g1 :=
        (neg_eq_of_add_eq_zero_right h0).symm
      have e : evalPt (-X) (numC (-(Point.some x1 y1 g1 : MPoint A)) (-(.some x2 y2 g2))) =
          evalPt X (numC (Point.some x1 y1 g1 : MPoint A) (.some x2 y2 g2)) := by
        have n1 : (Point.some x1 y1 g1 : MPoint A) ≠ 0 := by intro h; cases h
        rw [eW, numC_neg _ (neg_ne_zero.mpr n1), numC_neg _ n1]
        exact den _
      exact ⟨Or.inl e, fun _ => e⟩
    · refine ⟨Or.inr ?_, fun h => absurd h h0⟩
      obtain ⟨g1', e1⟩ := neg_pt g1
      obtain ⟨g2', e2⟩ := neg_pt g2
      rcases X with _ | ⟨x, y, k⟩
      · exact absurd rfl hX
      obtain ⟨k', e⟩ := neg_pt k
      have c1 : ¬(x1 = x2 ∧ y1 = (mont A).negY x2 y2) := fun h => h0 (Point.add_of_Y_eq h.1 h.2)
      have c2 : ¬(x1 = x2 ∧ -y1 = (mont A).negY x2 (-y2)) := by
        rintro ⟨hx, hy⟩
        apply c1
        rw [negY_mont] at hy ⊢
        exact ⟨hx, by linear_combination -hy⟩
      have n1 : numC (Point.some x1 y1 g1 : MPoint A) (.some x2 y2 g2) =
        CoordinateRing.YClass (mont A) (linePolynomial x1 y1 ((mont A).slope x1 x2 y1 y2)) :=
        if_neg c1
      have n2 : numC (Point.some x1 (-y1) g1' : MPoint A) (.some x2 (-y2) g2') =
        CoordinateRing.YClass (mont A)
          (linePolynomial x1 (-y1) ((mont A).slope x1 x2 (-y1) (-y2))) := if_neg c2
      have hs : (mont A).slope x1 x2 (-y1) (-y2) = -(mont A).slope x1 x2 y1 y2 := by
        by_cases hx : x1 = x2
        · have hy1 : y1 ≠ (mont A).negY x2 y2 := fun h => c1 ⟨hx, h⟩
          have hy2 : -y1 ≠ (mont A).negY x2 (-y2) := fun h => c2 ⟨hx, h⟩
          rw [slope_of_Y_ne hx hy1, slope_of_Y_ne hx hy2, negY_mont, negY_mont, ← neg_div_neg_eq,
            ← neg_div]
          have a1 : (mont A).a₁ = 0 := rfl
          rw [a1]
          congr 1 <;> ring
        · rw [slope_of_X_ne hx, slope_of_X_ne hx, ← neg_div]
          congr 1; ring
      rw [e1, e2, e, n1, n2, hs, evalPt_Y, evalPt_Y]
      ring
  have ed : evalPt (-X) (denC (-V + -W)) = evalPt X (denC (V + W)) := by
    rw [← neg_add]; exact den _
  unfold gv
  rw [ed]
  refine ⟨?_, fun h => by rw [num.2 h]⟩
  rcases num.1 with h | h
  · left; rw [h]
  · right; rw [h, neg_div]

theorem mil_neg (P : MPoint A) {X : MPoint A} (hX : X ≠ 0) (n : Nat) (hn : 1 ≤ n) :
    mil (-P) (-X) n = mil P X n ∨ mil (-P) (-X) n = -mil P X n := by
  refine chain_induction (p := fun n => mil (-P) (-X) n = mil P X n ∨
    mil (-P) (-X) n = -mil P X n) (Or.inl (by rw [mil_one, mil_one])) ?_ ?_ n hn
  · intro k hk ih
    rw [mil_even _ _ hk, mil_even _ _ hk, neg_nsmul]
    have := (gv_neg (k • P) (k • P) hX).1
    rcases ih with h | h <;> rcases this with h' | h' <;> rw [h, h'] <;> simp
  · intro k hk ih
    rw [mil_odd _ _ hk, mil_odd _ _ hk, neg_nsmul]
    have := (gv_neg ((2 * k) • P) P hX).1
    rcases ih with h | h <;> rcases this with h' | h' <;> rw [h, h'] <;> simp

/-- For even `n`, Miller's function of `n` is the same on the reflected points. -/
theorem mil_neg_even {P X : MPoint A} (hX : X ≠ 0) {k : Nat} (hk : 1 ≤ k) (hP : (2 * k) • P = 0) :
    mil (-P) (-X) (2 * k) = mil P X (2 * k) := by
  rw [mil_even _ _ hk, mil_even _ _ hk, neg_nsmul,
    (gv_neg (k • P) (k • P) hX).2 (by rw [← add_nsmul, ← two_mul, hP])]
  rcases mil_neg P hX k hk with h | h
  · rw [h]
  · rw [h]; ring

theorem gv_self {P : MPoint A} : gv P P P = 0 := by
  unfold gv
  rcases P with _ | ⟨x, y, h⟩
  · exact zero_div _
  · by_cases hxy : x = x ∧ y = (mont A).negY x y
    · have e : numC (Point.some x y h : MPoint A) (.some x y h) = CoordinateRing.XClass (mont A) x :=
        if_pos hxy
      rw [e, evalPt_X, sub_self, zero_div]
    · have e : numC (Point.some x y h : MPoint A) (.some x y h) = CoordinateRing.YClass (mont A)
          (linePolynomial x y ((mont A).slope x x y y)) := if_neg hxy
      rw [e, evalPt_Y, sub_self, mul_zero, zero_add, sub_self, zero_div]

theorem mil_self (P : MPoint A) (n : Nat) (hn : 2 ≤ n) : mil P P n = 0 := by
  have : n = 1 ∨ mil P P n = 0 := by
    refine chain_induction (p := fun n => n = 1 ∨ mil P P n = 0) (Or.inl rfl) ?_ ?_ n (by omega)
    · intro k hk ih
      right
      rw [mil_even _ _ hk]
      rcases ih with h | h
      · rw [h, one_nsmul, gv_self, mul_zero]
      · rw [h]; simp
    · intro k hk ih
      right
      rw [mil_odd _ _ hk]
      rcases ih with h | h
      · omega
      · rw [h]; simp
  rcases this with h | h
  · omega
  · exact h

/-- The Miller value of the code in general. -/
theorem tatePairing_gen {E : Crv K} (hE : E.Good) (chk : Bool) {p r : Pt K} {P X : MPoint E.A}
    (hp : PRep p P) (hr : PRep r X) (n : Nat) (hn : 1 ≤ n) (h0 : n • P = 0) (hc : ChainFree n P)
    (hP : P ≠ 0) (hX0 : X ≠ 0) :
    tatePairing chk E p r n = some (if mil P X n = 0 then 1 else mil P X n) := by
  have hl : n >>> Nat.log2 n = 1 := by
    rw [Nat.shiftRight_eq_div_pow]
    have h1 := Nat.log2_self_le (n := n) (by omega)
    have h2 := Nat.lt_log2_self (n := n)
    rw [pow_succ] at h2
    have hpos : 0 < 2 ^ n.log2 := by positivity
    apply Nat.le_antisymm
    · exact Nat.le_of_lt_succ ((Nat.div_lt_iff_lt_mul hpos).mpr (by omega))
    · exact (Nat.one_le_div_iff hpos).mpr h1
  obtain ⟨v', hv', e⟩ := millerLoop_spec hE chk hp hr hP hX0 n hc (Nat.log2 n) p le_rfl
    (by rw [hl]) (by rw [hl, one_nsmul]; exact hp)
  rw [hl, mil_one] at e
  unfold tatePairing
  rw [if_neg (by omega), e]
  dsimp only
  have hi : v'.isInf = true := (isInf_false hv').mpr h0
  rw [hi]
  simp only [Bool.not_true, Bool.and_false, Bool.false_eq_true, if_false]
  split <;> rfl

theorem IsBasis.neg_left {H : Type*} [AddCommGroup H] {n : Nat} {P Q : H} (hb : IsBasis n P Q) :
    IsBasis n (-P) Q := by
  intro x y
  rw [zsmul_neg, ← neg_zsmul, hb (-x) y, dvd_neg]

theorem IsBasis.ne_left {H : Type*} [AddCommGroup H] {n : Nat} {P Q : H} (hn : 2 ≤ n)
    (hb : IsBasis n P Q) : P ≠ 0 := by
  intro h
  have := hb.order_left
  rw [h, addOrderOf_zero] at this
  omega

/-- The code pairs two multiples of one vector of a basis to one. -/
theorem weil_axis {E : Crv K} (hE : E.Good) (chk : Bool) {p r : Pt K} {P Q : MPoint E.A} {n a : Nat}
    (hn : 2 ≤ n) (hb : IsBasis n P Q) (hp : PRep p P) (hr : PRep r (a • P))
    (hc : ChainFree n (a • P)) (h1 : OffChain n P (a • P)) (h2 : OffChain n (a • P) P) :
    weilPairing chk E r p n = some 1 := by
  obtain ⟨m1, m2, m3⟩ := we_axis hE.two hE.disc hn hb a h1 h2
  have hP := hb.nsmul_left
  have a0 : a • P ≠ 0 := (h1 n (InChain.self n)).1
  rw [weilPairing_off hE chk hr hp n (by omega) (by rw [← mul_nsmul', mul_comm, mul_nsmul', hP,
    nsmul_zero]) hP hc (chainFree_of_order (by omega) hb.order_left) a0 (hb.ne_left hn) m2 m1]
  unfold we at m3 ⊢
  have h3 : ((-1 : K) ^ n) * (-1) ^ n = 1 := by rw [← mul_pow]; simp
  congr 1
  rw [div_eq_one_iff_eq m2] at m3
  rw [div_eq_one_iff_eq m1, ← m3]
  linear_combination mil P (a • P) n * h3

theorem weil_axis_neg {E : Crv K} (hE : E.Good) (chk : Bool) {p r : Pt K} {P Q : MPoint E.A}
    {n a : Nat} (hn : 2 ≤ n) (hb : IsBasis n P Q) (hp : PRep p P) (hr : PRep r (a • P))
    (hc : ChainFree n (a • P)) (h1 : OffChain n P (a • P)) (h2 : OffChain n (a • P) P) :
    weilPairing chk E r p.neg n = some 1 := by
  have hP := hb.nsmul_left
  have e : (a * (n - 1)) • (-P) = a • P := by
    rw [mul_nsmul']
    congr 1
    have h5 : (n - 1) • P + P = 0 := by
      rw [← succ_nsmul, Nat.sub_add_cancel (by omega), hP]
    rw [neg_nsmul]; exact neg_eq_of_add_eq_zero_right h5
  refine weil_axis (a := a * (n - 1)) hE chk hn hb.neg_left (prep_neg hp) ?_ ?_ ?_ ?_
  · rw [e]; exact hr
  · rw [e]; exact hc
  · rw [e]
    intro m hm
    obtain ⟨i1, i2, i3⟩ := h1 m hm
    rw [neg_nsmul, neg_neg]
    exact ⟨i1, i3, i2⟩
  · rw [e]
    intro m hm
    obtain ⟨i1, i2, i3⟩ := h2 m hm
    refine ⟨neg_ne_zero.mpr i1, fun h => i3 ?_, fun h => i2 (neg_injective h)⟩
    rw [← h, neg_neg]

/-- The chain of a power of two. -/
theorem inChain_two {e m : Nat} (h : InChain (2 ^ e) m) : m = 0 ∨ ∃ j, m = 2 ^ j := by
  have key : ∀ t, (2 ^ e : Nat) >>> t = 0 ∨ ∃ j, (2 ^ e : Nat) >>> t = 2 ^ j := by
    intro t
    rw [Nat.shiftRight_eq_div_pow]
    by_cases ht : t ≤ e
    · right; exact ⟨e - t, by rw [Nat.pow_div ht (by norm_num)]⟩
    · left; exact Nat.div_eq_of_lt (Nat.pow_lt_pow_right (by norm_num) (by omega))
  obtain ⟨t, h | h⟩ := h
  · rw [h]; exact key t
  · rcases key (t + 1) with h' | ⟨j, h'⟩
    · left; rw [h, h']
    · right; exact ⟨j + 1, by rw [h, h', pow_succ]; ring⟩

theorem offChain_two {H : Type*} [AddCommGroup H] {e : Nat} {P : H} (he : 1 ≤ e)
    (ho : addOrderOf P = 2 ^ e) {a b : Nat} (hb : b % 2 = 1)
    (h1 : a • P ≠ b • P) (h2 : a • P ≠ -(b • P)) : OffChain (2 ^ e) (a • P) (b • P) := by
  have odd : ∀ z : Int, z % 2 = 1 → z • P ≠ 0 := by
    intro z hz h
    have := addOrderOf_dvd_iff_zsmul_eq_zero.mpr h
    rw [ho] at this
    have h2 : (2 : Int) ∣ z := by
      refine dvd_trans ?_ this
      obtain ⟨e', rfl⟩ : ∃ e', e = e' + 1 := ⟨e - 1, by omega⟩
      push_cast
      exact ⟨2 ^ e', by rw [pow_succ]; ring⟩
    omega
  intro m hm
  have b0 : b • P ≠ 0 := by
    have := odd b (by omega)
    rwa [natCast_zsmul] at this
  refine ⟨b0, ?_⟩
  rcases inChain_two hm with rfl | ⟨j, rfl⟩
  · rw [zero_nsmul, neg_zero]; exact ⟨b0, b0⟩
  · rcases j with _ | j
    · rw [pow_zero, one_nsmul]
      exact ⟨fun h => h1 h.symm, fun h => h2 (by rw [h, neg_neg])⟩
    · constructor
      · intro h
        apply odd (b - 2 ^ (j + 1) * a : Int)
        · rw [pow_succ]
          have e : (b - 2 ^ j * 2 * a : Int) = b - 2 * (2 ^ j * a) := by ring
          rw [e]; omega
        · have : ((2 : Int) ^ (j + 1)) * a = ((2 ^ (j + 1) * a : Nat) : Int) := by push_cast; rfl
          rw [this, sub_zsmul, natCast_zsmul, natCast_zsmul, h, mul_nsmul', add_neg_cancel]
      · intro h
        apply odd (b + 2 ^ (j + 1) * a : Int)
        · rw [pow_succ]
          have e : (b + 2 ^ j * 2 * a : Int) = b + 2 * (2 ^ j * a) := by ring
          rw [e]; omega
        · have : ((2 : Int) ^ (j + 1)) * a = ((2 ^ (j + 1) * a : Nat) : Int) := by push_cast; rfl
          rw [this, add_zsmul, natCast_zsmul, natCast_zsmul, h, mul_nsmul', neg_add_cancel]

/-- For a power of two the code pairs odd multiples of `P` with `-P` to one. -/
theorem weil_axis_two {E : Crv K} (hE : E.Good) (chk : Bool) {p r : Pt K} {P Q : MPoint E.A}
    {e a : Nat} (he : 1 ≤ e) (hb : IsBasis (2 ^ e) P Q) (ha : a % 2 = 1) (hp : PRep p P)
    (hr : PRep r (a • P)) : weilPairing chk E r p.neg (2 ^ e) = some 1 := by
  have hn : 2 ≤ 2 ^ e := by
    calc 2 = 2 ^ 1 := rfl
      _ ≤ 2 ^ e := Nat.pow_le_pow_right (by norm_num) he
  have oP := hb.order_left
  have hP := hb.nsmul_left
  have P0 := hb.ne_left hn
  have cP := chainFree_of_order (by omega) oP
  obtain ⟨e', rfl⟩ : ∃ e', e = e' + 1 := ⟨e - 1, by omega⟩
  have e2 : 2 ^ (e' + 1) = 2 * 2 ^ e' := by rw [pow_succ]; ring
  have k1 : 1 ≤ 2 ^ e' := Nat.one_le_two_pow
  have b0 : (2 ^ (e' + 1)).testBit 0 = false := by
    rw [Nat.testBit_zero, e2]; simp
  by_cases h1 : a • P = P
  · rw [h1] at hr
    unfold weilPairing
    rw [tatePairing_gen hE chk hr (prep_neg hp) _ (by omega) hP cP P0 (neg_ne_zero.mpr P0),
      tatePairing_gen hE chk (prep_neg hp) hr _ (by omega) (by rw [neg_nsmul, hP, neg_zero])
        (chainFree_neg cP) (neg_ne_zero.mpr P0) P0]
    have := mil_neg_even (P := -P) (X := P) P0 k1 (by rw [← e2, neg_nsmul, hP, neg_zero])
    rw [neg_neg, ← e2] at this
    rw [this]
    dsimp only
    rw [b0]
    simp only [Bool.false_eq_true, if_false, Option.some.injEq]
    refine div_self ?_
    split
    · exact one_ne_zero
    · assumption
  by_cases h2 : a • P = -P
  · rw [h2] at hr
    unfold weilPairing
    rw [tatePairing_gen hE chk hr (prep_neg hp) _ (by omega) (by rw [neg_nsmul, hP, neg_zero])
        (chainFree_neg cP) (neg_ne_zero.mpr P0) (neg_ne_zero.mpr P0),
      tatePairing_gen hE chk (prep_neg hp) hr _ (by omega) (by rw [neg_nsmul, hP, neg_zero])
        (chainFree_neg cP) (neg_ne_zero.mpr P0) (neg_ne_zero.mpr P0),
      mil_self _ _ hn, if_pos rfl]
    dsimp only
    rw [b0]
    simp
  have o1 := offChain_two (a := a) (by omega) oP (b := 1) (by norm_num) (by rwa [one_nsmul])
    (by rwa [one_nsmul])
  have o2 := offChain_two (by omega) oP (a := 1) ha
    (by rw [one_nsmul]; exact fun h => h1 h.symm)
    (by rw [one_nsmul]; exact fun h => h2 (neg_eq_iff_eq_neg.mpr h).symm)
  rw [one_nsmul] at o1 o2
  have oR : addOrderOf (a • P) = 2 ^ (e' + 1) := by
    rw [addOrderOf_nsmul' _ (by omega), oP]
    have : Nat.gcd (2 ^ (e' + 1)) a = 1 := by
      rw [← Nat.coprime_iff_gcd_eq_one]
      exact Nat.Coprime.pow_left _ (Nat.coprime_two_left.mpr (Nat.odd_iff.mpr ha))
    rw [this, Nat.div_one]
  exact weil_axis_neg hE chk hn hb hp hr (chainFree_of_order (by omega) oR) o2 o1

/-- `bidlp` from its pairings. -/
theorem bidlp_of_pairings {chk : Bool} {E : Crv K} {p q r : Pt K} {fs : Factored} (hf : fs.Ok chk)
    {w : K} {a b : Nat} {ePQ : Option K} (h1 : weilPairing chk E p q fs.value = some w)
    (ho : orderOf w = fs.value) (he : ePQ = none ∨ ePQ = weilPairing chk E p q fs.value)
    (h3 : weilPairing chk E r q fs.value = some (w ^ a))
    (h4 : weilPairing chk E r p.neg fs.value = some (w ^ b)) {x y : Nat}
    (hxy : (x, y) = (a % fs.value, b % fs.value)) : bidlp chk E r p q fs ePQ = some (x, y) := by
  rw [h1] at he
  unfold bidlp
  dsimp only
  rw [h3, h4, hxy]
  rcases he with rfl | rfl
  · rw [h1]
    dsimp only
    rw [phDlp_spec hf _ ho, phDlp_spec hf _ ho]
  · dsimp only
    rw [phDlp_spec hf _ ho, phDlp_spec hf _ ho]

theorem two_le_value {chk : Bool} {fs : Factored} (hf : fs.Ok chk) {a : Nat} (ha : ¬fs.value ∣ a) :
    2 ≤ fs.value := by
  have hpos := value_pos (fs := fs) (fun p hp => (hf.1.1 p hp).ne_zero)
  rcases Nat.lt_or_ge fs.value 2 with h | h
  · have : fs.value = 1 := by omega
    rw [this] at ha
    exact absurd (one_dvd a) ha
  · exact h

/-- Two points killed by `2^(k+1)` are a basis as soon as their `2^k` multiples are distinct and not zero. -/
theorem isBasis_two_pow {H : Type*} [AddCommGroup H] {k : Nat} {P Q : H} (kP : 2 ^ (k + 1) • P = 0)
    (kQ : 2 ^ (k + 1) • Q = 0) (nP : 2 ^ k • P ≠ 0) (nQ : 2 ^ k • Q ≠ 0) (nPQ : 2 ^ k • P ≠ 2 ^ k • Q) :
    IsBasis (2 ^ (k + 1)) P Q := by
  have two : ∀ {X : H}, 2 ^ (k + 1) • X = 0 → (2 : Int) • ((2 ^ k : Nat) • X) = 0 := by
    intro X h
    rw [← natCast_zsmul, ← mul_zsmul, ← h, ← natCast_zsmul]
    congr 1
    push_cast
    ring
  intro a b
  constructor
  · intro hab
    have key : ∀ j, j ≤ k + 1 → ((2 ^ j : Nat) : Int) ∣ a ∧ ((2 ^ j : Nat) : Int) ∣ b := by
      intro j
      induction j with
      | zero => intro _; simp
      | succ j ih =>
        intro hj
        obtain ⟨⟨a', ha⟩, ⟨b', hb⟩⟩ := ih (by omega)
        have h0 : a' • ((2 ^ k : Nat) • P) + b' • ((2 ^ k : Nat) • Q) = 0 := by
          have : ((2 ^ (k - j) : Nat) : Int) • (a • P + b • Q) = 0 := by rw [hab, zsmul_zero]
          rw [ha, hb, zsmul_add, ← mul_zsmul, ← mul_zsmul] at this
          rw [← natCast_zsmul, ← natCast_zsmul, ← mul_zsmul, ← mul_zsmul, ← this]
          have e : (2 ^ k : Nat) = 2 ^ (k - j) * 2 ^ j := by rw [← pow_add]; congr 1; omega
          rw [e]
          push_cast
          congr 2 <;> ring
        have red : ∀ {X : H} (c : Int), (2 : Int) • X = 0 → c • X = (c % 2) • X := by
          intro X c h
          conv_lhs => rw [← Int.emod_add_mul_ediv c 2, add_zsmul, mul_comm, mul_zsmul, h, zsmul_zero, add_zero]
        rw [red a' (two kP), red b' (two kQ)] at h0
        have : a' % 2 = 0 ∧ b' % 2 = 0 := by
          rcases Int.emod_two_eq_zero_or_one a' with h1 | h1 <;>
          rcases Int.emod_two_eq_zero_or_one b' with h2 | h2 <;> rw [h1, h2] at h0
          · exact ⟨h1, h2⟩
          · exact absurd (by simpa using h0) nQ
          · exact absurd (by simpa using h0) nP
          · exfalso
            apply nPQ
            have h3 := two kQ
            rw [two_zsmul] at h3
            rw [one_zsmul, one_zsmul] at h0
            rw [eq_neg_of_add_eq_zero_left h0, eq_neg_of_add_eq_zero_left h3, neg_neg]
            exact eq_neg_of_add_eq_zero_left h3
        rw [ha, hb, pow_succ]
        push_cast
        exact ⟨mul_dvd_mul_left _ (Int.dvd_of_emod_eq_zero this.1),
          mul_dvd_mul_left _ (Int.dvd_of_emod_eq_zero this.2)⟩
    exact key _ le_rfl
  · rintro ⟨⟨a', rfl⟩, ⟨b', rfl⟩⟩
    rw [mul_comm, mul_zsmul, natCast_zsmul, kP, mul_comm, mul_zsmul, natCast_zsmul, kQ]
    simp

end Festa
