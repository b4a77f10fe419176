import Verif.Lemmas.FpDivLimb
/-! The 64-bit approximations and `set_montylin`. -/
namespace Festa
open BinGcd
variable {P : FpParams}

/-! ### Scan for the top words -/

theorem nz_mask (m : UInt64) : (((m ||| -m) >>> 63) - 1) = if m = 0 then -1 else 0 := by
  split_ifs with h
  · rw [h]; rfl
  · have hm : 0 < m.toNat := by
      rcases Nat.eq_zero_or_pos m.toNat with h0 | h0
      · exact absurd (UInt64.toNat_inj.mp (by rw [h0]; rfl)) h
      · exact h0
    have h1 : ((m ||| -m) >>> 63).toNat = 1 := by
      rw [UInt64.toNat_shiftRight, UInt64.toNat_or, show (63 : UInt64).toNat % 64 = 63 from rfl,
        Nat.shiftRight_eq_div_pow, UInt64.toNat_neg, show UInt64.size = 2 ^ 64 from rfl]
      have hlt := u64_lt m
      have l1 : m.toNat ≤ m.toNat ||| (2 ^ 64 - m.toNat) % 2 ^ 64 := Nat.left_le_or
      have l2 : (2 ^ 64 - m.toNat) % 2 ^ 64 ≤ m.toNat ||| (2 ^ 64 - m.toNat) % 2 ^ 64 :=
        Nat.right_le_or
      have l3 : m.toNat ||| (2 ^ 64 - m.toNat) % 2 ^ 64 < 2 ^ 64 :=
        Nat.or_lt_two_pow hlt (Nat.mod_lt _ (by norm_num))
      rw [Nat.mod_eq_of_lt (show 2 ^ 64 - m.toNat < 2 ^ 64 by omega)] at *
      change _ / 2 ^ 63 = 1
      generalize m.toNat ||| (2 ^ 64 - m.toNat) = z at *
      omega
    have : (m ||| -m) >>> 63 = 1 := UInt64.toNat_inj.mp (by rw [h1]; rfl)
    rw [this]; rfl

theorem xor_and_ones (x y : UInt64) : x ^^^ ((x ^^^ y) &&& (-1 : UInt64)) = y := by
  rw [UInt64.and_comm, and_ones, xor_xor_self]

theorem xor_and_zero (x y : UInt64) : x ^^^ ((x ^^^ y) &&& (0 : UInt64)) = x := by simp

/-- The result of the scan. -/
def ScanSpec (a b : Limbs) (s : Scan) : Prop :=
  (lval a = 0 ∧ lval b = 0 ∧ s = ⟨-1, -1, 0, 0, 0, 0⟩) ∨
  (lval a = s.a_hi.toNat ∧ lval b = s.b_hi.toNat ∧ s.c_hi = 0 ∧ s.c_lo = -1 ∧
    s.a_hi ||| s.b_hi ≠ 0) ∨
  (s.c_hi = 0 ∧ s.c_lo = 0 ∧ s.a_hi ||| s.b_hi ≠ 0 ∧ ∃ m la lb : ℕ, la < 2 ^ (64 * m) ∧
    lb < 2 ^ (64 * m) ∧
    lval a = la + 2 ^ (64 * m) * (s.a_lo.toNat + 2 ^ 64 * s.a_hi.toNat) ∧
    lval b = lb + 2 ^ (64 * m) * (s.b_lo.toNat + 2 ^ 64 * s.b_hi.toNat))

theorem scan_spec {a b : Limbs} (h : a.length = b.length) :
    ScanSpec a b ((List.zip a b).reverse.foldl Scan.step
      ⟨0xFFFFFFFFFFFFFFFF, 0xFFFFFFFFFFFFFFFF, 0, 0, 0, 0⟩) := by
  rw [List.foldl_reverse]
  induction a generalizing b with
  | nil =>
    have : b = [] := by simpa using h.symm
    subst this
    exact Or.inl ⟨rfl, rfl, rfl⟩
  | cons x xs ih =>
    cases b with
    | nil => simp at h
    | cons y ys =>
      simp only [List.length_cons, Nat.add_right_cancel_iff] at h
      have hi := ih h
      simp only [List.zip_cons_cons, List.foldr_cons]
      generalize List.foldr (fun x y => y.step x) (⟨0xFFFFFFFFFFFFFFFF, 0xFFFFFFFFFFFFFFFF, 0, 0, 0, 0⟩ : Scan)
        (xs.zip ys) = s at *
      rcases hi with ⟨h1, h2, rfl⟩ | ⟨h1, h2, h3, h4, h5⟩ | ⟨h1, h2, h3, m, la, lb, h4, h5, h6, h7⟩
      · simp only [Scan.step, nz_mask, xor_and_ones]
        by_cases h0 : x ||| y = 0
        · left
          have hx : x = 0 := by
            apply UInt64.toNat_inj.mp
            have := congrArg UInt64.toNat h0
            rw [UInt64.toNat_or] at this
            exact (Nat.or_eq_zero_iff.mp this).1
          have hy : y = 0 := by
            apply UInt64.toNat_inj.mp
            have := congrArg UInt64.toNat h0
            rw [UInt64.toNat_or] at this
            exact (Nat.or_eq_zero_iff.mp this).2
          subst hx; subst hy
          refine ⟨by simp [h1], by simp [h2], ?_⟩
          simp
        · right; left
          refine ⟨by simp [h1], by simp [h2], ?_, rfl, h0⟩
          simp [h0]
      · right; right
        simp only [Scan.step, h3, h4, xor_and_ones, xor_and_zero, and_zeros]
        refine ⟨trivial, trivial, h5, 0, 0, 0, by norm_num, by norm_num, ?_, ?_⟩
        · simp [h1]
        · simp [h2]
      · right; right
        simp only [Scan.step, h1, h2, xor_and_zero, and_zeros]
        have e : 2 ^ (64 * (m + 1)) = 2 ^ 64 * 2 ^ (64 * m) := by rw [← pow_add]; congr 1; ring
        refine ⟨trivial, trivial, h3, m + 1, x.toNat + 2 ^ 64 * la, y.toNat + 2 ^ 64 * lb, ?_, ?_, ?_, ?_⟩
        · rw [e]
          have := u64_lt x
          have : 2 ^ 64 * (la + 1) ≤ 2 ^ 64 * 2 ^ (64 * m) := Nat.mul_le_mul_left _ h4
          omega
        · rw [e]
          have := u64_lt y
          have : 2 ^ 64 * (lb + 1) ≤ 2 ^ 64 * 2 ^ (64 * m) := Nat.mul_le_mul_left _ h5
          omega
        · rw [lval_cons, h6, e]; ring
        · rw [lval_cons, h7, e]; ring

/-- The shifted top word. -/
theorem top_word {hi lo s : UInt64} (hs : s.toNat ≤ 63) (hh : hi.toNat < 2 ^ (64 - s.toNat)) :
    ((hi <<< s) ||| ((lo >>> 1) >>> (63 - s))).toNat
      = (lo.toNat + 2 ^ 64 * hi.toNat) / 2 ^ (64 - s.toNat) := by
  have hlo := u64_lt lo
  have e63 : ((63 : UInt64) - s).toNat = 63 - s.toNat := sub_toNat (by simpa using hs)
  have h2 : ((lo >>> 1) >>> (63 - s)).toNat = lo.toNat / 2 ^ (64 - s.toNat) := by
    rw [UInt64.toNat_shiftRight, shr1, e63, Nat.mod_eq_of_lt (by omega), Nat.shiftRight_eq_div_pow,
      Nat.div_div_eq_div_mul, ← pow_succ', show 63 - s.toNat + 1 = 64 - s.toNat by omega]
  have hp : 2 ^ 64 = 2 ^ (64 - s.toNat) * 2 ^ s.toNat := by rw [← pow_add]; congr 1; omega
  have h1 : (hi <<< s).toNat = 2 ^ s.toNat * hi.toNat := by
    rw [UInt64.toNat_shiftLeft, Nat.mod_eq_of_lt (show s.toNat < 64 by omega), Nat.shiftLeft_eq,
      Nat.mul_comm, Nat.mod_eq_of_lt]
    rw [hp, Nat.mul_comm (2 ^ (64 - s.toNat))]
    exact Nat.mul_lt_mul_of_pos_left hh (by positivity)
  have hb : lo.toNat / 2 ^ (64 - s.toNat) < 2 ^ s.toNat := by
    rw [Nat.div_lt_iff_lt_mul (by positivity), Nat.mul_comm, ← hp]; exact hlo
  rw [UInt64.toNat_or, h1, h2, ← Nat.two_pow_add_eq_or_of_lt hb]
  rw [hp, Nat.mul_assoc, Nat.add_mul_div_left _ _ (by positivity)]
  ring

/-- Combining the top 33 bits with the low 31 bits. -/
theorem mix_word (t l : UInt64) :
    ((t &&& (0xFFFFFFFF80000000 : UInt64)) ||| (l &&& (0x000000007FFFFFFF : UInt64))).toNat
      = 2 ^ 31 * (t.toNat / 2 ^ 31) + l.toNat % 2 ^ 31 := by
  have h1 : (l &&& 0x000000007FFFFFFF).toNat = l.toNat % 2 ^ 31 := by
    rw [UInt64.toNat_and, show (0x000000007FFFFFFF : UInt64).toNat = 2 ^ 31 - 1 from rfl,
      Nat.and_two_pow_sub_one_eq_mod]
  have h2 : (t &&& 0xFFFFFFFF80000000).toNat = 2 ^ 31 * (t.toNat / 2 ^ 31) := by
    have e : t &&& (0xFFFFFFFF80000000 : UInt64) = (t >>> 31) <<< 31 := by
      apply UInt64.toBitVec_inj.mp
      apply BitVec.eq_of_getLsbD_eq
      intro i hi
      simp only [UInt64.toBitVec_and, UInt64.toBitVec_shiftLeft, UInt64.toBitVec_shiftRight]
      have e31 : (31 : UInt64).toBitVec = 31#64 := rfl
      have ec : (0xFFFFFFFF80000000 : UInt64).toBitVec = 0xFFFFFFFF80000000#64 := rfl
      rw [e31, ec]
      have m31 : 31#64 % 64 = 31#64 := by decide
      rw [m31]
      rw [BitVec.getLsbD_and, BitVec.shiftLeft_eq', BitVec.getLsbD_shiftLeft,
        BitVec.ushiftRight_eq', BitVec.getLsbD_ushiftRight]
      have : (31#64).toNat = 31 := rfl
      rw [this]
      have hc : ∀ i, i < 64 → (0xFFFFFFFF80000000#64).getLsbD i = decide (31 ≤ i) := by decide
      rw [hc i hi]
      by_cases h31 : 31 ≤ i
      · have : 31 + (i - 31) = i := by omega
        simp [h31, hi, this]
      · simp [h31]
    rw [e, UInt64.toNat_shiftLeft, UInt64.toNat_shiftRight,
      show (31 : UInt64).toNat % 64 = 31 from rfl, Nat.shiftLeft_eq, Nat.shiftRight_eq_div_pow]
    have := u64_lt t
    omega
  rw [UInt64.toNat_or, h1, h2, ← Nat.two_pow_add_eq_or_of_lt (Nat.mod_lt _ (by norm_num))]

theorem headD_toNat {a : Limbs} (ha : a ≠ []) : (a.headD 0).toNat = lval a % 2 ^ 64 := by
  cases a with
  | nil => exact absurd rfl ha
  | cons x xs => simp

theorem approx_part {A la m lo hi s : ℕ} (hs : s ≤ 63) (hla : la < 2 ^ (64 * m))
    (hA : A = la + 2 ^ (64 * m) * (lo + 2 ^ 64 * hi)) :
    (lo + 2 ^ 64 * hi) / 2 ^ (64 - s) / 2 ^ 31 = A / 2 ^ (31 + (64 * m + 64 - s)) := by
  have h1 : A / 2 ^ (64 * m) = lo + 2 ^ 64 * hi := by
    rw [hA, Nat.add_mul_div_left _ _ (by positivity), Nat.div_eq_of_lt hla, zero_add]
  rw [← h1, Nat.div_div_eq_div_mul, Nat.div_div_eq_div_mul, ← pow_add, ← pow_add]
  congr 2
  omega

/-- The approximations are either the exact values or the documented 33+31 bit mixtures. -/
theorem gcdApprox_spec {a b : Limbs} (hl : a.length = b.length) (ha : a ≠ []) :
    ((gcdApprox a b).1.toNat = lval a ∧ (gcdApprox a b).2.toNat = lval b) ∨
    ∃ d, Approx (lval a) (lval b) (gcdApprox a b).1.toNat (gcdApprox a b).2.toNat d := by
  have hb : b ≠ [] := by intro h; rw [h] at hl; exact ha (List.length_eq_zero_iff.mp hl)
  have hA := headD_toNat ha
  have hB := headD_toNat hb
  have hsc := scan_spec hl
  unfold gcdApprox
  simp only
  generalize (List.zip a b).reverse.foldl Scan.step
    ⟨0xFFFFFFFFFFFFFFFF, 0xFFFFFFFFFFFFFFFF, 0, 0, 0, 0⟩ = s at *
  rcases hsc with ⟨h1, h2, rfl⟩ | ⟨h1, h2, h3, h4, h5⟩ | ⟨h1, h2, h3, m, la, lb, h4, h5, h6, h7⟩
  · left
    simp only [and_ones, xor_xor_self]
    rw [hA, hB, h1, h2]; simp
  · left
    simp only [h4, and_ones, xor_xor_self]
    rw [hA, hB, h1, h2]
    exact ⟨Nat.mod_eq_of_lt (u64_lt _), Nat.mod_eq_of_lt (u64_lt _)⟩
  · right
    simp only [h2, and_zeros, UInt64.xor_zero]
    obtain ⟨-, z2, z3⟩ := lzcnt_spec (s.a_hi ||| s.b_hi)
    obtain ⟨z3, z4⟩ := z3 h3
    generalize lzcnt (s.a_hi ||| s.b_hi) = z at *
    rw [UInt64.toNat_or] at z2 z3
    have za : s.a_hi.toNat < 2 ^ (64 - z.toNat) := lt_of_le_of_lt Nat.left_le_or z2
    have zb : s.b_hi.toNat < 2 ^ (64 - z.toNat) := lt_of_le_of_lt Nat.right_le_or z2
    have zmax : 2 ^ (63 - z.toNat) ≤ s.a_hi.toNat ∨ 2 ^ (63 - z.toNat) ≤ s.b_hi.toNat := by
      by_contra hc
      rw [not_or, not_le, not_le] at hc
      exact absurd (Nat.or_lt_two_pow hc.1 hc.2) (by omega)
    have upper : ∀ {A la lo hi : ℕ}, la < 2 ^ (64 * m) → lo < 2 ^ 64 → hi < 2 ^ (64 - z.toNat) →
        A = la + 2 ^ (64 * m) * (lo + 2 ^ 64 * hi) → A < 2 ^ (64 + (64 * m + 64 - z.toNat)) := by
      intro A la lo hi e1 e2 e3 e4
      have e5 : 2 ^ (64 + (64 * m + 64 - z.toNat)) = 2 ^ (64 * m) * (2 ^ 64 * 2 ^ (64 - z.toNat)) := by
        rw [← pow_add, ← pow_add]; congr 1; omega
      have e6 : lo + 2 ^ 64 * hi + 1 ≤ 2 ^ 64 * 2 ^ (64 - z.toNat) := by
        have : 2 ^ 64 * (hi + 1) ≤ 2 ^ 64 * 2 ^ (64 - z.toNat) := Nat.mul_le_mul_left _ e3
        omega
      have e7 := Nat.mul_le_mul_left (2 ^ (64 * m)) e6
      rw [e5, e4]
      rw [Nat.mul_add, Nat.mul_one] at e7
      omega
    have lower : ∀ {A la lo hi : ℕ}, 2 ^ (63 - z.toNat) ≤ hi →
        A = la + 2 ^ (64 * m) * (lo + 2 ^ 64 * hi) → 2 ^ (63 + (64 * m + 64 - z.toNat)) ≤ A := by
      intro A la lo hi e3 e4
      have e5 : 2 ^ (63 + (64 * m + 64 - z.toNat)) = 2 ^ (64 * m) * (2 ^ 64 * 2 ^ (63 - z.toNat)) := by
        rw [← pow_add, ← pow_add]; congr 1; omega
      have e6 : 2 ^ 64 * 2 ^ (63 - z.toNat) ≤ lo + 2 ^ 64 * hi := by
        have : 2 ^ 64 * 2 ^ (63 - z.toNat) ≤ 2 ^ 64 * hi := Nat.mul_le_mul_left _ e3
        omega
      have e7 := Nat.mul_le_mul_left (2 ^ (64 * m)) e6
      rw [e5, e4]
      omega
    refine ⟨64 * m + 64 - z.toNat, ?_, ?_, ?_, ?_⟩
    · rw [mix_word, top_word z4 za, hA, approx_part z4 h4 h6]
      congr 1
      omega
    · rw [mix_word, top_word z4 zb, hB, approx_part z4 h5 h7]
      congr 1
      omega
    · exact max_lt (upper h4 (u64_lt _) za h6) (upper h5 (u64_lt _) zb h7)
    · rcases zmax with zm | zm
      · exact le_max_of_le_left (lower zm h6)
      · exact le_max_of_le_right (lower zm h7)

/-! ### `set_montylin` -/

theorem linLoop_spec {f g : UInt64} (hfg : f.toNat + g.toNat < 2 ^ 64) {u v : Limbs}
    (h : u.length = v.length) (c : UInt64) (hc : c.toNat ≤ f.toNat + g.toNat) :
    (linLoop f g u v c).1.length = u.length ∧
    lval (linLoop f g u v c).1 + (2 ^ 64) ^ u.length * (linLoop f g u v c).2.toNat
      = f.toNat * lval u + g.toNat * lval v + c.toNat := by
  induction u generalizing v c with
  | nil =>
    have : v = [] := by simpa using h.symm
    subst this
    exact ⟨rfl, by simp [linLoop]⟩
  | cons x xs ih =>
    cases v with
    | nil => simp at h
    | cons y ys =>
      simp only [List.length_cons, Nat.add_right_cancel_iff] at h
      have hb := x2_bound (u64_lt x) (u64_lt y) hfg hc
      have h3 := umullX2Add_spec x f y g c
        (lt_of_lt_of_le hb (by
          have : (2:ℕ) ^ 128 = 2 ^ 64 * 2 ^ 64 := by norm_num
          rw [this]; exact Nat.mul_le_mul_left _ (by omega)))
      simp only [linLoop, List.length_cons, lval_cons]
      generalize umullX2Add x f y g c = s3 at *
      obtain ⟨d3, e3⟩ := s3
      simp only at h3 ⊢
      obtain ⟨i1, i3⟩ := ih h e3 (by
        have := u64_lt d3
        rw [← h3] at hb
        by_contra hcon
        have : 2 ^ 64 * (f.toNat + g.toNat + 1) ≤ 2 ^ 64 * e3.toNat := Nat.mul_le_mul_left _ (by omega)
        omega)
      refine ⟨by rw [i1], ?_⟩
      rw [Wsucc]
      linear_combination 2 ^ 64 * i3 + h3

theorem select_sign (u v : Limbs) (h : u.length = v.length) (neg : Bool) :
    fpSelect u v (sgnMask neg).toUInt32 = if neg then v else u := by
  cases neg
  · exact select_zero h
  · exact select_ones h

/-- The Montgomery division by `2^64` at the end of `set_montylin`. -/
theorem montylin_red (hV : P.Valid) {t : Limbs} (ht : t.length = P.N) (up : UInt64)
    (hlt : lval t + P.R * up.toNat < 2 ^ 64 * P.p) :
    Reduced P (montylinRed P t up) ∧
    ∃ q : ℤ, (2 ^ 64 : ℤ) * lval (montylinRed P t up) = lval t + P.R * up.toNat + q * P.p := by
  have hN := hV.N_two
  have hlen := hV.len
  have hR : P.R = (2 ^ 64) ^ (P.N - 1) * 2 ^ 64 := by
    rw [P.R_def, ← Wsucc]; congr 1; omega
  rcases hm : P.MODULUS with _ | ⟨m0, ms⟩
  · rw [hm] at hlen; simp at hlen; omega
  rcases t with _ | ⟨t0, ts⟩
  · simp at ht; omega
  rw [hm] at hlen
  simp only [List.length_cons] at hlen ht
  unfold montylinRed
  rw [hm]
  have h0 := p0i_clears hV hm t0
  have e2 := umullAdd_spec (t0 * P.P0I) m0 t0
  rw [h0] at e2
  have e3 := macLoop_spec (t0 * P.P0I) (m := ms) (t := ts) (by omega)
    (umullAdd (t0 * P.P0I) m0 t0).2
  have l3 := macLoop_length (t0 * P.P0I) (m := ms) (t := ts) (by omega)
    (umullAdd (t0 * P.P0I) m0 t0).2
  simp only
  have e4 := addcarry_spec up (macLoop (t0 * P.P0I) ms ts (umullAdd (t0 * P.P0I) m0 t0).2).2 false
  have hk := u64_lt (t0 * P.P0I)
  generalize t0 * P.P0I = k at *
  generalize umullAdd k m0 t0 = z at *
  obtain ⟨z1, z2⟩ := z
  simp only at h0 e2 e3 l3 e4 ⊢
  generalize macLoop k ms ts z2 = y at *
  obtain ⟨ds, cc⟩ := y
  simp only at e3 l3 e4 ⊢
  generalize addcarry up cc false = x at *
  obtain ⟨d, c1⟩ := x
  simp only at e4 ⊢
  have hp : P.p = m0.toNat + 2 ^ 64 * lval ms := by rw [P.p_def, hm, lval_cons]
  have hms : ms.length = P.N - 1 := by omega
  rw [hms] at e3 l3
  have tot : 2 ^ 64 * (lval (ds ++ [d]) + P.R * c1.toNat)
      = lval (t0 :: ts) + P.R * up.toNat + k.toNat * P.p := by
    rw [lval_append, l3, hp, hR]
    simp only [lval_cons, lval_nil, UInt64.toNat_zero, Bool.toNat_false] at e2 e4 ⊢
    generalize (2 ^ 64) ^ (P.N - 1) = Q at *
    linear_combination (2 ^ 64) * e3 + e2 + 2 ^ 64 * Q * e4
  have hb : lval (ds ++ [d]) + P.R * c1.toNat < 2 * P.p := by
    have : k.toNat * P.p ≤ 2 ^ 64 * P.p := Nat.mul_le_mul_right _ hk.le
    omega
  obtain ⟨f1, f2⟩ := finalSub_spec hV (t := ds ++ [d]) (by simp [l3]; omega) c1 hb
  have tot' : (2 : ℤ) ^ 64 * (lval (ds ++ [d]) + P.R * c1.toNat)
      = lval (t0 :: ts) + P.R * up.toNat + k.toNat * P.p := by exact_mod_cast tot
  by_cases hc : lval (ds ++ [d]) + P.R * c1.toNat < P.p
  · rw [if_pos hc] at f2
    refine ⟨⟨f1, ?_⟩, k.toNat, ?_⟩
    · rw [f2]; omega
    · have hc1 : c1 = false := by
        have := p_lt_R hV
        cases c1
        · rfl
        · simp at hc; omega
      rw [f2, ← tot', hc1]; simp
  · rw [if_neg hc] at f2
    refine ⟨⟨f1, ?_⟩, k.toNat - 2 ^ 64, ?_⟩
    · rw [f2]; omega
    · rw [f2, Nat.cast_sub (by omega)]
      push_cast at tot' ⊢
      linear_combination tot'

/-- `set_montylin` computes `(f u + g v) / 2^64` modulo `p`. -/
theorem montylin_spec (hV : P.Valid) {u v : Limbs} (hu : Reduced P u) (hv : Reduced P v)
    {wf wg : UInt64} {f g : ℤ} (hf : WI wf f) (hg : WI wg g) (hfb : |f| ≤ 2 ^ 62)
    (hgb : |g| ≤ 2 ^ 62) :
    Reduced P (fpMontylin P u v wf wg) ∧
    (2 ^ 64 : ZMod P.p) * lval (fpMontylin P u v wf wg) = f * lval u + g * lval v := by
  have hfb' := abs_le.mp hfb
  have hgb' := abs_le.mp hgb
  have ef := condNegW_abs hf (by omega)
  have eg := condNegW_abs hg (by omega)
  have sf := sgnMask_of_WI hf (by omega)
  have sg := sgnMask_of_WI hg (by omega)
  rw [sf] at ef
  rw [sg] at eg
  have hnu := fpNeg_lval hV hu
  have hnv := fpNeg_lval hV hv
  have eu := select_sign u (fpNeg P u) (hu.1.trans hnu.1.1.symm) (decide (f < 0))
  have ev := select_sign v (fpNeg P v) (hv.1.trans hnv.1.1.symm) (decide (g < 0))
  have cast_neg : ∀ {w : Limbs}, Reduced P w → (lval (fpNeg P w) : ZMod P.p) = -lval w := by
    intro w hw
    rw [(fpNeg_lval hV hw).2, cast_mod, Nat.cast_sub hw.2.le, cast_p]; ring
  have redu : Reduced P (if decide (f < 0) = true then fpNeg P u else u) := by
    split_ifs; exacts [hnu.1, hu]
  have redv : Reduced P (if decide (g < 0) = true then fpNeg P v else v) := by
    split_ifs; exacts [hnv.1, hv]
  have valu : ((f.natAbs : ℕ) : ZMod P.p) * lval (if decide (f < 0) = true then fpNeg P u else u)
      = f * lval u := by
    by_cases h0 : f < 0
    · simp only [h0, decide_true, if_true]
      have : ((f.natAbs : ℕ) : ZMod P.p) = -(f : ZMod P.p) := by
        have : ((f.natAbs : ℕ) : ℤ) = -f := by omega
        have := congrArg (Int.cast : ℤ → ZMod P.p) this
        push_cast at this
        simpa using this
      rw [this, cast_neg hu]; ring
    · simp only [h0, decide_false, Bool.false_eq_true, if_false]
      have : ((f.natAbs : ℕ) : ZMod P.p) = (f : ZMod P.p) := by
        have : ((f.natAbs : ℕ) : ℤ) = f := by omega
        have := congrArg (Int.cast : ℤ → ZMod P.p) this
        simpa using this
      rw [this]
  have valv : ((g.natAbs : ℕ) : ZMod P.p) * lval (if decide (g < 0) = true then fpNeg P v else v)
      = g * lval v := by
    by_cases h0 : g < 0
    · simp only [h0, decide_true, if_true]
      have : ((g.natAbs : ℕ) : ZMod P.p) = -(g : ZMod P.p) := by
        have : ((g.natAbs : ℕ) : ℤ) = -g := by omega
        have := congrArg (Int.cast : ℤ → ZMod P.p) this
        simpa using this
      rw [this, cast_neg hv]; ring
    · simp only [h0, decide_false, Bool.false_eq_true, if_false]
      have : ((g.natAbs : ℕ) : ZMod P.p) = (g : ZMod P.p) := by
        have : ((g.natAbs : ℕ) : ℤ) = g := by omega
        have := congrArg (Int.cast : ℤ → ZMod P.p) this
        simpa using this
      rw [this]
  simp only [fpMontylin]
  rw [sf, sg, eu, ev]
  generalize condNegW wf (sgnMask (decide (f < 0))) = F at *
  generalize condNegW wg (sgnMask (decide (g < 0))) = G at *
  generalize (if decide (f < 0) = true then fpNeg P u else u) = tu at *
  generalize (if decide (g < 0) = true then fpNeg P v else v) = tv at *
  obtain ⟨l1, l2⟩ := linLoop_spec (f := F) (g := G) (by omega) (redu.1.trans redv.1.symm) 0 (by simp)
  rw [redu.1] at l1 l2
  rw [← P.R_def] at l2
  simp only [UInt64.toNat_zero, add_zero] at l2
  obtain ⟨hred, q, hq⟩ := montylin_red hV l1 (linLoop F G tu tv 0).2 (by
    rw [l2]
    have h1 : F.toNat * lval tu ≤ F.toNat * P.p := Nat.mul_le_mul_left _ redu.2.le
    have h2 : G.toNat * lval tv ≤ G.toNat * P.p := Nat.mul_le_mul_left _ redv.2.le
    have h3 : (F.toNat + G.toNat) * P.p < 2 ^ 64 * P.p :=
      Nat.mul_lt_mul_of_pos_right (by omega) (p_pos hV)
    rw [Nat.add_mul] at h3
    omega)
  refine ⟨hred, ?_⟩
  have hq' := congrArg (Int.cast : ℤ → ZMod P.p) hq
  have l2' := congrArg (Nat.cast : ℕ → ZMod P.p) l2
  push_cast at hq' l2'
  rw [cast_p, mul_zero, add_zero] at hq'
  rw [show (2 ^ 64 : ZMod P.p) = 18446744073709551616 by norm_num, hq', l2', ef, eg, valu, valv]

end Festa
