import Verif.Lemmas.FpDivApprox
import Verif.Spec.FpDiv
/-! The outer loop of the division. -/
namespace Festa
open BinGcd
variable {P : FpParams}

/-- The part of the outer invariant about the pair `(a, b)` after `k` rounds. -/
structure AB (P : FpParams) (k : ℕ) (a b : Limbs) : Prop where
  la : a.length = P.N
  lb : b.length = P.N
  odd : lval b % 2 = 1
  gcd : Nat.gcd (lval a) (lval b) = 1
  size : Nat.size (lval a) + Nat.size (lval b) + 31 * k ≤ 2 * P.BITLEN ∨ (lval a = 0 ∧ lval b = 1)

/-- The factors found by one round: the new values, and what the words hold. -/
theorem round_core (hV : P.Valid) {k : ℕ} {a b : Limbs} (h : AB P k a b) {r : Inner} {s : J}
    (hrel : RelI r s) (hs : s = J.step^[31] (start (lval a) (lval b) (gcdApprox a b).1.toNat
      (gcdApprox a b).2.toNat)) :
    Inv (lval a) (lval b) 31 0 s ∧ WI (unpackFG r.fg0).1 s.f0 ∧ WI (unpackFG r.fg0).2 s.g0 ∧
      WI (unpackFG r.fg1).1 s.f1 ∧ WI (unpackFG r.fg1).2 s.g1 ∧
      (let na := fpLindiv31abs a b (unpackFG r.fg0).1 (unpackFG r.fg0).2
       let nb := fpLindiv31abs a b (unpackFG r.fg1).1 (unpackFG r.fg1).2
       lval na.1 = s.A.natAbs ∧ na.2 = sgnMask (decide (s.A < 0)) ∧
       lval nb.1 = s.B.natAbs ∧ nb.2 = sgnMask (decide (s.B < 0)) ∧ AB P (k + 1) na.1 nb.1) := by
  have hN := hV.N_two
  have ha : a ≠ [] := by intro h0; have := h.la; rw [h0] at this; simp at this; omega
  obtain ⟨inv, hsz⟩ := round_size h.odd h.gcd (gcdApprox_spec (h.la.trans h.lb.symm) ha)
  rw [← hs] at inv hsz
  obtain ⟨p1, p2⟩ := unpack_spec hrel.fg0 inv.f0 inv.g0
  obtain ⟨p3, p4⟩ := unpack_spec hrel.fg1 inv.f1 inv.g1
  obtain ⟨a1, a2, a3⟩ := lindiv31abs_spec (h.la.trans h.lb.symm) ha p1 p2 inv.s0 inv.eqA
  obtain ⟨b1, b2, b3⟩ := lindiv31abs_spec (h.la.trans h.lb.symm) ha p3 p4 inv.s1 inv.eqB
  refine ⟨inv, p1, p2, p3, p4, a2, a3, b2, b3, ?_⟩
  refine ⟨a1.trans h.la, b1.trans h.la, ?_, ?_, ?_⟩
  · rw [b2]; have := inv.Bodd; omega
  · rw [a2, b2]
    obtain ⟨u, v, huv⟩ := inv.gcd
    have : Int.gcd s.A s.B = 1 := Int.isCoprime_iff_gcd_eq_one.mp ⟨u, v, huv⟩
    exact this
  · rw [a2, b2]
    have key : sz s.A + sz s.B + 31 ≤ Nat.size (lval a) + Nat.size (lval b) →
        Nat.size (lval a) + Nat.size (lval b) + 31 * k ≤ 2 * P.BITLEN →
        Nat.size s.A.natAbs + Nat.size s.B.natAbs + 31 * (k + 1) ≤ 2 * P.BITLEN := by
      intro h1 h2; unfold sz at h1; omega
    have fin : s.A = 0 → |s.B| = 1 → s.A.natAbs = 0 ∧ s.B.natAbs = 1 := by
      intro h1 h2
      refine ⟨by rw [h1]; rfl, ?_⟩
      rw [Int.abs_eq_natAbs] at h2
      exact_mod_cast h2
    rcases hsz with h1 | ⟨h1, h2⟩
    · rcases h.size with h3 | ⟨h3, h4⟩
      · exact Or.inl (key h1 h3)
      · rw [h3, h4] at h1; simp at h1
    · exact Or.inr (fin h1 h2)

theorem condNegW_mask {w : UInt64} {f : ℤ} (h : WI w f) (b : Bool) :
    WI (condNegW w (sgnMask b)) (if b then -f else f) := condNegW_WI h b

theorem size_le_bitlen {P : FpParams} {n : ℕ} (hV : P.Valid) (h : n ≤ P.p) : Nat.size n ≤ P.BITLEN :=
  Nat.size_le.mpr (lt_of_le_of_lt h hV.bitlen.2)

/-- Outer invariant of the division of `x` by `y` (as residues) after `k` rounds. -/
structure DivInv (P : FpParams) (x y : ZMod P.p) (k : ℕ) (s : DivState) : Prop where
  ab : AB P k s.a s.b
  ru : Reduced P s.u
  rv : Reduced P s.v
  eu : (lval s.a : ZMod P.p) * x = y * lval s.u * 2 ^ (33 * k)
  ev : (lval s.b : ZMod P.p) * x = y * lval s.v * 2 ^ (33 * k)

theorem cast_natAbs_sign (A : ℤ) :
    ((A.natAbs : ℕ) : ZMod P.p) = if decide (A < 0) = true then -(A : ZMod P.p) else A := by
  have h := Int.natAbs_eq A
  by_cases h0 : A < 0
  · simp only [h0, decide_true, if_true]
    have : ((A.natAbs : ℕ) : ℤ) = -A := by omega
    have := congrArg (Int.cast : ℤ → ZMod P.p) this
    simpa using this
  · simp only [h0, decide_false, Bool.false_eq_true, if_false]
    have : ((A.natAbs : ℕ) : ℤ) = A := by omega
    have := congrArg (Int.cast : ℤ → ZMod P.p) this
    simpa using this

/-- Transport of the linear relation through one update. -/
theorem upd_rel (hV : P.Valid) {x y a b u v w n : ZMod P.p} {f g A : ℤ} {k : ℕ} {neg : Bool}
    (hA : (2 : ℤ) ^ 31 * A = f * (a' : ℕ) + g * (b' : ℕ)) (ha : a = (a' : ℕ)) (hb : b = (b' : ℕ))
    (eu : a * x = y * u * 2 ^ (33 * k)) (ev : b * x = y * v * 2 ^ (33 * k))
    (hn : n = if neg = true then -(A : ZMod P.p) else A)
    (hw : 2 ^ 64 * w = ((if neg = true then -f else f : ℤ) : ZMod P.p) * u
      + ((if neg = true then -g else g : ℤ) : ZMod P.p) * v) :
    n * x = y * w * 2 ^ (33 * (k + 1)) := by
  have h2 : IsUnit ((2 : ZMod P.p) ^ 31) := (isUnit_two hV).pow _
  apply h2.mul_left_cancel
  have hA' := congrArg (Int.cast : ℤ → ZMod P.p) hA
  push_cast at hA'
  rw [← ha, ← hb] at hA'
  have e : (2 : ZMod P.p) ^ 31 * (y * w * 2 ^ (33 * (k + 1))) = y * 2 ^ (33 * k) * (2 ^ 64 * w) := by
    rw [show 33 * (k + 1) = 33 * k + 33 by ring, pow_add]; ring
  rw [e, hw, hn]
  have e31 : (2 : ZMod P.p) ^ 31 = 2147483648 := by norm_num
  rw [e31]
  cases neg
  · simp only [Bool.false_eq_true, if_false]
    linear_combination x * hA' + f * eu + g * ev
  · simp only [if_true]
    push_cast
    linear_combination -x * hA' - f * eu - g * ev

theorem divRound_inv (hV : P.Valid) {x y : ZMod P.p} {k : ℕ} {s : DivState} (h : DivInv P x y k s) :
    DivInv P x y (k + 1) (divRound P s) := by
  obtain ⟨inv, w1, w2, w3, w4, na, sa, nb, sb, hab⟩ :=
    round_core hV h.ab ((relI_start (gcdApprox s.a s.b).1 (gcdApprox s.a s.b).2 (lval s.a)
      (lval s.b)).iterate 31) rfl
  generalize J.step^[31] (start (lval s.a) (lval s.b) (gcdApprox s.a s.b).1.toNat
    (gcdApprox s.a s.b).2.toNat) = j at *
  have w1' := condNegW_mask w1 (decide (j.A < 0))
  have w2' := condNegW_mask w2 (decide (j.A < 0))
  have w3' := condNegW_mask w3 (decide (j.B < 0))
  have w4' := condNegW_mask w4 (decide (j.B < 0))
  have bd : ∀ (c : Bool) (f : ℤ), |f| ≤ 2 ^ 31 → |if c then -f else f| ≤ 2 ^ 62 := by
    intro c f hf
    cases c
    · simp only [Bool.false_eq_true, if_false]; linarith
    · simp only [if_true, abs_neg]; linarith
  obtain ⟨m1, m2⟩ := montylin_spec hV h.ru h.rv w1' w2' (bd _ _ (abs_le.mpr ⟨inv.f0.1.le, inv.f0.2⟩))
    (bd _ _ (abs_le.mpr ⟨inv.g0.1.le, inv.g0.2⟩))
  obtain ⟨m3, m4⟩ := montylin_spec hV h.ru h.rv w3' w4' (bd _ _ (abs_le.mpr ⟨inv.f1.1.le, inv.f1.2⟩))
    (bd _ _ (abs_le.mpr ⟨inv.g1.1.le, inv.g1.2⟩))
  rw [← sa] at m1 m2
  rw [← sb] at m3 m4
  refine ⟨hab, m1, m3, ?_, ?_⟩
  · exact upd_rel hV inv.eqA rfl rfl h.eu h.ev (by
      have := cast_natAbs_sign (P := P) j.A; rw [← na] at this; exact this) m2
  · exact upd_rel hV inv.eqB rfl rfl h.eu h.ev (by
      have := cast_natAbs_sign (P := P) j.B; rw [← nb] at this; exact this) m4

theorem divRounds_inv (hV : P.Valid) {x y : ZMod P.p} {s : DivState} (h : DivInv P x y 0 s) (k : ℕ) :
    DivInv P x y k ((divRound P)^[k] s) := by
  induction k with
  | zero => exact h
  | succ k ih => rw [Function.iterate_succ_apply']; exact divRound_inv hV ih

theorem num_facts (hV : P.Valid) : 2 * P.BITLEN = 31 * P.num1 + P.num2 + 2 ∧ P.num2 ≤ 62 := by
  have := hV.bitlen_34
  unfold FpParams.num2 FpParams.num1
  omega

/-- After the outer loop both values fit in one word and the last loop reaches the GCD. -/
theorem tail_exact (hV : P.Valid) {a b : Limbs} (h : AB P P.num1 a b) :
    let s := J.step^[P.num2] (start (lval a) (lval b) (a.headD 0).toNat (b.headD 0).toNat)
    (a.headD 0).toNat = lval a ∧ (b.headD 0).toNat = lval b ∧
    s.B = 1 ∧ (s.y : ℤ) = 1 ∧ Inv (lval a) (lval b) P.num2 1 s := by
  have hN := hV.N_two
  obtain ⟨n1, n2⟩ := num_facts hV
  have hb1 : 1 ≤ lval b := by have := h.odd; omega
  have hsum : Nat.size (lval a) + Nat.size (lval b) ≤ P.num2 + 2 ∨ (lval a = 0 ∧ lval b = 1) := by
    rcases h.size with h1 | h1
    · left; omega
    · exact Or.inr h1
  have hb2 : 1 ≤ Nat.size (lval b) := Nat.size_pos.mpr hb1
  have hlt : lval a < 2 ^ 64 ∧ lval b < 2 ^ 64 := by
    rcases hsum with h1 | ⟨h1, h2⟩
    · exact ⟨Nat.size_le.mp (by omega), Nat.size_le.mp (by omega)⟩
    · rw [h1, h2]; norm_num
  have ha : a ≠ [] := by intro h0; have := h.la; rw [h0] at this; simp at this; omega
  have hb : b ≠ [] := by intro h0; have := h.lb; rw [h0] at this; simp at this; omega
  have ea : (a.headD 0).toNat = lval a := by rw [headD_toNat ha, Nat.mod_eq_of_lt hlt.1]
  have eb : (b.headD 0).toNat = lval b := by rw [headD_toNat hb, Nat.mod_eq_of_lt hlt.2]
  intro s
  obtain ⟨x1, x2, x3, x4, x5⟩ := exact_iterate P.num2 h.odd h.gcd
  have inv : Inv (lval a) (lval b) P.num2 1 (J.step^[P.num2] (start (lval a) (lval b) (lval a) (lval b))) :=
    inv_iterate 1 P.num2 (by omega) h.odd h.gcd (by simp) (by simp)
  have hs : s = J.step^[P.num2] (start (lval a) (lval b) (lval a) (lval b)) := by
    show J.step^[P.num2] (start (lval a) (lval b) (a.headD 0).toNat (b.headD 0).toNat) = _
    rw [ea, eb]
  rw [← hs] at x1 x2 x3 x4 x5 inv
  have hB : s.B = 1 := by
    rcases x3 with h1 | h1
    · have hBodd := inv.Bodd
      have hB0 : s.B ≠ 0 := by omega
      have := sz_pos hB0
      have hsz : sz s.A + sz s.B ≤ 2 := by
        rcases hsum with h2 | ⟨h2, h3⟩
        · omega
        · rw [h2, h3] at h1; simp at h1; omega
      by_cases hA0 : s.A = 0
      · obtain ⟨u, v, huv⟩ := inv.gcd
        rw [hA0, mul_zero, zero_add] at huv
        have := Int.isUnit_iff.mp (IsUnit.of_mul_eq_one v (by rw [mul_comm]; exact huv))
        omega
      · have := sz_pos hA0
        have h3 := lt_sz s.B
        rw [show sz s.B = 1 by omega, abs_of_nonneg x2] at h3
        omega
    · exact h1.2
  exact ⟨ea, eb, hB, by rw [x5, hB], inv⟩

theorem gcd_p {P : FpParams} (hp : P.p.Prime) {n : ℕ} (h0 : n ≠ 0) (h : n < P.p) : Nat.gcd n P.p = 1 := by
  rw [Nat.gcd_comm]
  exact (Nat.Prime.coprime_iff_not_dvd hp).mpr (fun hd => absurd (Nat.le_of_dvd (Nat.pos_of_ne_zero h0) hd) (by omega))

theorem AB_start (hV : P.Valid) (hp : P.p.Prime) {y : Limbs} (hy : Reduced P y) (h0 : lval y ≠ 0) :
    AB P 0 y P.MODULUS := by
  refine ⟨hy.1, hV.len, hV.odd, gcd_p hp h0 hy.2, Or.inl ?_⟩
  have h1 := size_le_bitlen hV hy.2.le
  have h2 := size_le_bitlen hV le_rfl
  rw [← P.p_def]
  omega

theorem fpDiv_eq (P : FpParams) (x y : Limbs) : fpDiv P x y =
    (let s := (divRound P)^[P.num1] ⟨y, P.MODULUS, x, fpZero P⟩
     let t := Tail.step^[P.num2] ⟨s.a.headD 0, s.b.headD 0, 1, 0, 0, 1⟩
     let w := ~~~(fpIsZero y)
     fpMul P ((fpMontylin P s.u s.v t.f1 t.g1).map (· &&& ((w.toUInt64 <<< 32) ||| w.toUInt64)))
       P.TFIXDIV_VAL) := rfl

/-- Division by a non-zero element. -/
theorem rep_div (hV : P.Valid) (hD : P.DivValid) (hp : P.p.Prime) {a b : Limbs} {x y z : ZMod P.p}
    (ha : Rep P a x) (hb : Rep P b y) (hy : y ≠ 0) (hz : z * y = x) : Rep P (fpDiv P a b) z := by
  have hb0 : lval b ≠ 0 := by
    intro h0
    have := hb.2
    rw [h0, Nat.cast_zero] at this
    have hR := isUnit_R hV
    exact hy (hR.mul_left_eq_zero.mp this.symm)
  have inv0 : DivInv P (lval a) (lval b) 0 ⟨b, P.MODULUS, a, fpZero P⟩ := by
    refine ⟨AB_start hV hp hb.1 hb0, ha.1, reduced_zero hV, by simp, ?_⟩
    rw [← P.p_def, cast_p, show lval (fpZero P) = 0 from lval_replicate_zero _]
    simp
  have inv := divRounds_inv hV inv0 P.num1
  rw [fpDiv_eq]
  simp only
  generalize (divRound P)^[P.num1] ⟨b, P.MODULUS, a, fpZero P⟩ = s at *
  obtain ⟨t1, t2, t3, t4, t5⟩ := tail_exact hV inv.ab
  have rel := (relT_start (s.a.headD 0) (s.b.headD 0) (lval s.a) (lval s.b)).iterate P.num2
  generalize J.step^[P.num2] (start (lval s.a) (lval s.b) (s.a.headD 0).toNat (s.b.headD 0).toNat) = j at *
  generalize Tail.step^[P.num2] ⟨s.a.headD 0, s.b.headD 0, 1, 0, 0, 1⟩ = t at *
  have hn2 := (num_facts hV).2
  have hpow : (2 : ℤ) ^ P.num2 ≤ 2 ^ 62 := pow_le_pow_right₀ (by norm_num) hn2
  obtain ⟨m1, m2⟩ := montylin_spec hV inv.ru inv.rv rel.f1 rel.g1
    (abs_le.mpr ⟨by have := t5.f1.1; omega, by have := t5.f1.2; omega⟩)
    (abs_le.mpr ⟨by have := t5.g1.1; omega, by have := t5.g1.2; omega⟩)
  have hw : fpIsZero b = 0 := by
    rw [iszero_spec, decide_eq_false hb0]; rfl
  have hm : ((~~~(fpIsZero b)).toUInt64 <<< 32) ||| (~~~(fpIsZero b)).toUInt64 = -1 := by
    rw [hw]; rfl
  rw [hm, map_and_ones]
  generalize fpMontylin P s.u s.v t.f1 t.g1 = r at *
  -- 2^n2 * x = y * r * 2^(33 n1 + 64)
  have e1 := t5.eqB
  rw [t3, mul_one] at e1
  have e1' := congrArg (Int.cast : ℤ → ZMod P.p) e1
  push_cast at e1'
  have e2 : (2 : ZMod P.p) ^ P.num2 * lval a = lval b * lval r * 2 ^ (33 * P.num1 + 64) := by
    rw [pow_add]
    linear_combination lval a * e1' + j.f1 * inv.eu + j.g1 * inv.ev - lval b * 2 ^ (33 * P.num1) * m2
  obtain ⟨q1, q2⟩ := fpMul_lval hV m1 hD.len
  apply rep_of_R_mul hV q1
  have q2' := cast_eq_of_modEq q2
  push_cast at q2'
  rw [q2', hD.val, cast_mod]
  push_cast
  have hyu : IsUnit y := by
    have : Fact P.p.Prime := ⟨hp⟩
    exact isUnit_iff_ne_zero.mpr hy
  rw [ha.2, hb.2, ← hz] at e2
  have h33 : 33 * P.num1 + 64 = (33 * P.num1 + 64 - P.num2) + P.num2 := by omega
  rw [h33, pow_add] at e2
  have hcancel := hyu.mul ((isUnit_R hV).mul ((isUnit_two hV).pow P.num2))
  apply hcancel.mul_left_cancel
  linear_combination -P.R * P.R * e2

theorem negLoop_length (w : UInt64) (x : Limbs) (c : Bool) : (negLoop w x c).length = x.length := by
  induction x generalizing c with
  | nil => rfl
  | cons a as ih => simp only [negLoop, List.length_cons, ih]

theorem shr31_length (x : Limbs) (up : UInt64) : (shr31 x up).length = x.length := by
  induction x with
  | nil => rfl
  | cons a as ih =>
    cases as with
    | nil => rfl
    | cons b bs => simp only [shr31, List.length_cons] at ih ⊢; rw [ih]

theorem lindivLoop_length (sf f sg g : UInt64) {a b : Limbs} (h : a.length = b.length) (c1 c2 : Bool)
    (c3 : UInt64) : (lindivLoop sf f sg g a b c1 c2 c3).1.length = a.length := by
  induction a generalizing b c1 c2 c3 with
  | nil => simp [lindivLoop]
  | cons x xs ih =>
    cases b with
    | nil => simp at h
    | cons y ys =>
      simp only [List.length_cons, Nat.add_right_cancel_iff] at h
      simp only [lindivLoop, List.length_cons]
      rw [ih h]

theorem linLoop_length (f g : UInt64) {u v : Limbs} (h : u.length = v.length) (c : UInt64) :
    (linLoop f g u v c).1.length = u.length := by
  induction u generalizing v c with
  | nil => simp [linLoop]
  | cons x xs ih =>
    cases v with
    | nil => simp at h
    | cons y ys =>
      simp only [List.length_cons, Nat.add_right_cancel_iff] at h
      simp only [linLoop, List.length_cons]
      rw [ih h]

theorem lindiv31abs_length {a b : Limbs} (h : a.length = b.length) (f g : UInt64) :
    (fpLindiv31abs a b f g).1.length = a.length := by
  simp only [fpLindiv31abs]
  rw [negLoop_length, shr31_length, lindivLoop_length _ _ _ _ h]

theorem montylinRed_length (hV : P.Valid) {t : Limbs} (ht : t.length = P.N) (up : UInt64) :
    (montylinRed P t up).length = P.N := by
  have hN := hV.N_two
  have hlen := hV.len
  rcases hm : P.MODULUS with _ | ⟨m0, ms⟩
  · rw [hm] at hlen; simp at hlen; omega
  rcases t with _ | ⟨t0, ts⟩
  · simp at ht; omega
  rw [hm] at hlen
  simp only [List.length_cons] at hlen ht
  unfold montylinRed
  rw [hm]
  simp only
  apply finalSub_length hV
  rw [List.length_append, macLoop_length _ (by omega)]
  simp; omega

theorem fpSelect_len {u v : Limbs} (h : u.length = v.length) (c : UInt32) :
    (fpSelect u v c).length = u.length := by
  simp [fpSelect, h]

theorem fpNeg_len (hV : P.Valid) {u : Limbs} (h : u.length = P.N) : (fpNeg P u).length = P.N := by
  have hl : (List.replicate u.length (0 : UInt64)).length = u.length := by simp
  have h1 := subLoop_length hl false
  simp only [fpNeg, addBack]
  rw [addLoop_length (by rw [List.length_map, h1, hl, hV.len, h]), h1, hl, h]

theorem montylin_length (hV : P.Valid) {u v : Limbs} (hu : u.length = P.N) (hv : v.length = P.N)
    (f g : UInt64) : (fpMontylin P u v f g).length = P.N := by
  simp only [fpMontylin]
  have e1 : ∀ c, (fpSelect u (fpNeg P u) c).length = P.N := fun c => by
    rw [fpSelect_len (by rw [fpNeg_len hV hu, hu]), hu]
  have e2 : ∀ c, (fpSelect v (fpNeg P v) c).length = P.N := fun c => by
    rw [fpSelect_len (by rw [fpNeg_len hV hv, hv]), hv]
  apply montylinRed_length hV
  rw [linLoop_length _ _ (by rw [e1, e2]), e1]

theorem divRound_length (hV : P.Valid) {s : DivState} (h : s.a.length = P.N ∧ s.b.length = P.N ∧
    s.u.length = P.N ∧ s.v.length = P.N) :
    (divRound P s).a.length = P.N ∧ (divRound P s).b.length = P.N ∧
    (divRound P s).u.length = P.N ∧ (divRound P s).v.length = P.N := by
  obtain ⟨h1, h2, h3, h4⟩ := h
  simp only [divRound]
  refine ⟨?_, ?_, montylin_length hV h3 h4 _ _, montylin_length hV h3 h4 _ _⟩ <;>
    rw [lindiv31abs_length (h1.trans h2.symm), h1]

/-- Division by zero gives zero. -/
theorem rep_div_zero (hV : P.Valid) (hD : P.DivValid) {a b : Limbs} {x : ZMod P.p}
    (ha : Rep P a x) (hb : Rep P b 0) : Rep P (fpDiv P a b) 0 := by
  have hb0 : lval b = 0 := by
    have h := hb.2
    rw [zero_mul, ZMod.natCast_eq_zero_iff] at h
    exact Nat.eq_zero_of_dvd_of_lt h hb.1.2
  have hlen : ∀ k, ((divRound P)^[k] ⟨b, P.MODULUS, a, fpZero P⟩).a.length = P.N ∧
      ((divRound P)^[k] ⟨b, P.MODULUS, a, fpZero P⟩).b.length = P.N ∧
      ((divRound P)^[k] ⟨b, P.MODULUS, a, fpZero P⟩).u.length = P.N ∧
      ((divRound P)^[k] ⟨b, P.MODULUS, a, fpZero P⟩).v.length = P.N := by
    intro k
    induction k with
    | zero => exact ⟨hb.1.1, hV.len, ha.1.1, (reduced_zero hV).1⟩
    | succ k ih => rw [Function.iterate_succ_apply']; exact divRound_length hV ih
  obtain ⟨-, -, h3, h4⟩ := hlen P.num1
  rw [fpDiv_eq]
  simp only
  have hm : ((~~~(fpIsZero b)).toUInt64 <<< 32) ||| (~~~(fpIsZero b)).toUInt64 = 0 := by
    rw [iszero_spec, decide_eq_true hb0]; rfl
  rw [hm, map_and_zero, montylin_length hV h3 h4]
  have hz := rep_zero hV
  obtain ⟨n, hn⟩ := exists_rep_val hV (x := P.TFIXDIV_VAL) ⟨hD.len, hD.lt⟩
  have := rep_mul hV hz hn
  rwa [zero_mul] at this

end Festa
