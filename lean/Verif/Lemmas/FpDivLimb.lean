import Verif.Lemmas.FpDivWord
/-! Limb-level facts for the division and Legendre routines. -/
namespace Festa
open BinGcd
variable {P : FpParams}

/-! ### `set_lindiv31abs` -/

theorem not_toNat (a : UInt64) : (a ^^^ (-1 : UInt64)).toNat = 2 ^ 64 - 1 - a.toNat := by
  have h : a ^^^ (-1 : UInt64) = ~~~a := by
    apply UInt64.toBitVec_inj.mp
    simp only [UInt64.toBitVec_xor, UInt64.toBitVec_neg, UInt64.toBitVec_not]
    have : (1 : UInt64).toBitVec = 1#64 := rfl
    rw [this, BitVec.neg_one_eq_allOnes, BitVec.xor_allOnes]
  rw [h, UInt64.toNat_not]
  rfl

/-- Sign mask. -/
def sgnMask (neg : Bool) : UInt64 := if neg then -1 else 0

/-- One word of a conditional negation. -/
theorem condsub_word (neg : Bool) (a : UInt64) (c : Bool) :
    ((subborrow (a ^^^ sgnMask neg) (sgnMask neg) c).1.toNat : ℤ)
      = (if neg then -(a.toNat : ℤ) else a.toNat) - c.toNat
        + 2 ^ 64 * (subborrow (a ^^^ sgnMask neg) (sgnMask neg) c).2.toNat := by
  have h := subborrow_spec (a ^^^ sgnMask neg) (sgnMask neg) c
  have ha := u64_lt a
  cases neg
  · simp only [sgnMask, if_false, UInt64.xor_zero, UInt64.toNat_zero, Bool.false_eq_true] at h ⊢
    omega
  · simp only [sgnMask, if_true] at h ⊢
    rw [not_toNat, show (-1 : UInt64).toNat = 2 ^ 64 - 1 from rfl] at h
    omega

theorem negLoop_spec (neg : Bool) (x : Limbs) (c : Bool) :
    (negLoop (sgnMask neg) x c).length = x.length ∧ ∃ e : Bool,
    (lval (negLoop (sgnMask neg) x c) : ℤ)
      = (if neg then -(lval x : ℤ) else lval x) - c.toNat + (2 ^ 64) ^ x.length * e.toNat := by
  induction x generalizing c with
  | nil => exact ⟨rfl, c, by simp [negLoop]⟩
  | cons a as ih =>
    have h := condsub_word neg a c
    obtain ⟨l, e, he⟩ := ih (subborrow (a ^^^ sgnMask neg) (sgnMask neg) c).2
    refine ⟨by simp only [negLoop, List.length_cons, l], e, ?_⟩
    simp only [negLoop, lval_cons, List.length_cons, Wsucc, Nat.cast_add, Nat.cast_mul, pow_succ ((2:ℤ)^64)]
    rw [he, h]
    cases neg <;> simp <;> ring

/-- Bound for the double product. -/
theorem x2_bound {d1 d2 f g c : ℕ} (h1 : d1 < 2 ^ 64) (h2 : d2 < 2 ^ 64) (hfg : f + g < 2 ^ 64)
    (hc : c ≤ f + g) : d1 * f + d2 * g + c < 2 ^ 64 * (f + g + 1) := by
  have : d1 * f ≤ (2 ^ 64 - 1) * f := Nat.mul_le_mul_right _ (by omega)
  have : d2 * g ≤ (2 ^ 64 - 1) * g := Nat.mul_le_mul_right _ (by omega)
  omega

theorem lindivLoop_spec (na nb : Bool) {f g : UInt64} (hfg : f.toNat + g.toNat < 2 ^ 64) {a b : Limbs}
    (h : a.length = b.length) (c1 c2 : Bool) (c3 : UInt64) (hc : c3.toNat ≤ f.toNat + g.toNat) :
    let r := lindivLoop (sgnMask na) f (sgnMask nb) g a b c1 c2 c3
    r.1.length = a.length ∧ r.2.2.2.toNat ≤ f.toNat + g.toNat ∧
    (lval r.1 : ℤ) + (2 ^ 64) ^ a.length * r.2.2.2.toNat
      = f.toNat * ((if na then -(lval a : ℤ) else lval a) - c1.toNat
          + (2 ^ 64) ^ a.length * r.2.1.toNat)
        + g.toNat * ((if nb then -(lval b : ℤ) else lval b) - c2.toNat
          + (2 ^ 64) ^ a.length * r.2.2.1.toNat) + c3.toNat := by
  induction a generalizing b c1 c2 c3 with
  | nil =>
    have : b = [] := by simpa using h.symm
    subst this
    refine ⟨rfl, hc, ?_⟩
    simp [lindivLoop]
  | cons x xs ih =>
    cases b with
    | nil => simp at h
    | cons y ys =>
      simp only [List.length_cons, Nat.add_right_cancel_iff] at h
      have h1 := condsub_word na x c1
      have h2 := condsub_word nb y c2
      have hb := x2_bound (u64_lt (subborrow (x ^^^ sgnMask na) (sgnMask na) c1).1)
        (u64_lt (subborrow (y ^^^ sgnMask nb) (sgnMask nb) c2).1) hfg hc
      have h3 := umullX2Add_spec (subborrow (x ^^^ sgnMask na) (sgnMask na) c1).1 f
        (subborrow (y ^^^ sgnMask nb) (sgnMask nb) c2).1 g c3
        (lt_of_lt_of_le hb (by
          have : (2:ℕ) ^ 128 = 2 ^ 64 * 2 ^ 64 := by norm_num
          rw [this]; exact Nat.mul_le_mul_left _ (by omega)))
      simp only [lindivLoop, List.length_cons, lval_cons]
      generalize subborrow (x ^^^ sgnMask na) (sgnMask na) c1 = s1 at *
      generalize subborrow (y ^^^ sgnMask nb) (sgnMask nb) c2 = s2 at *
      obtain ⟨d1, e1⟩ := s1
      obtain ⟨d2, e2⟩ := s2
      simp only at h1 h2 h3 hb ⊢
      generalize umullX2Add d1 f d2 g c3 = s3 at *
      obtain ⟨d3, e3⟩ := s3
      simp only at h3 ⊢
      obtain ⟨i1, i2, i3⟩ := ih h e1 e2 e3 (by
        have := u64_lt d3
        rw [← h3] at hb
        by_contra hcon
        have : 2 ^ 64 * (f.toNat + g.toNat + 1) ≤ 2 ^ 64 * e3.toNat := Nat.mul_le_mul_left _ (by omega)
        omega)
      refine ⟨by rw [i1], i2, ?_⟩
      have h3' : (d3.toNat : ℤ) + 2 ^ 64 * e3.toNat = d1.toNat * f.toNat + d2.toNat * g.toNat + c3.toNat := by
        exact_mod_cast h3
      simp only [Nat.cast_add, Nat.cast_mul, pow_succ ((2:ℤ)^64)]
      generalize lindivLoop (sgnMask na) f (sgnMask nb) g xs ys e1 e2 e3 = r at *
      have e64 : ((2 ^ 64 : ℕ) : ℤ) = 2 ^ 64 := by norm_num
      rw [e64]
      cases na <;> cases nb <;> simp only [if_true, if_false, Bool.false_eq_true] at i3 h1 h2 ⊢ <;>
        linear_combination 2 ^ 64 * i3 + h3' + f.toNat * h1 + g.toNat * h2

theorem shr31_word (x y : UInt64) :
    ((x >>> 31) ||| (y <<< 33)).toNat = x.toNat / 2 ^ 31 + 2 ^ 33 * (y.toNat % 2 ^ 31) := by
  have hx := u64_lt x
  have hy := u64_lt y
  have h1 : (x >>> 31).toNat = x.toNat / 2 ^ 31 := by
    rw [UInt64.toNat_shiftRight]; simp [Nat.shiftRight_eq_div_pow]
  have h2 : (y <<< 33).toNat = 2 ^ 33 * (y.toNat % 2 ^ 31) := by
    rw [UInt64.toNat_shiftLeft, show (33 : UInt64).toNat % 64 = 33 from rfl, Nat.shiftLeft_eq]; omega
  rw [UInt64.toNat_or, h1, h2, Nat.or_comm, ← Nat.two_pow_add_eq_or_of_lt (by omega)]
  omega

theorem shr31_spec (x : Limbs) (hx : x ≠ []) (up : UInt64) :
    (shr31 x up).length = x.length ∧
    2 ^ 31 * lval (shr31 x up) + (x.headD 0).toNat % 2 ^ 31
      = lval x + (2 ^ 64) ^ x.length * (up.toNat % 2 ^ 31) := by
  induction x with
  | nil => exact absurd rfl hx
  | cons a as ih =>
    cases as with
    | nil =>
      refine ⟨rfl, ?_⟩
      simp only [shr31, lval_cons, lval_nil, shr31_word, List.headD_cons, List.length_cons,
        List.length_nil]
      have := u64_lt a
      omega
    | cons b bs =>
      obtain ⟨i1, i2⟩ := ih (by simp)
      simp only [List.headD_cons, List.length_cons, lval_cons] at i1 i2
      refine ⟨by simp only [shr31, List.length_cons, i1], ?_⟩
      simp only [shr31, lval_cons, shr31_word, List.headD_cons, List.length_cons, Wsucc] at i2 ⊢
      generalize lval (shr31 (b :: bs) up) = L at *
      have h1 : 2 ^ 64 * (2 ^ 31 * L + b.toNat % 2 ^ 31) = 2 ^ 64 *
        (b.toNat + 2 ^ 64 * lval bs + (2 ^ 64) ^ bs.length * 2 ^ 64 * (up.toNat % 2 ^ 31)) := by
        rw [i2]
      have h2 : (2 ^ 64) ^ bs.length * 2 ^ 64 * 2 ^ 64 * (up.toNat % 2 ^ 31) =
        2 ^ 64 * ((2 ^ 64) ^ bs.length * 2 ^ 64 * (up.toNat % 2 ^ 31)) := by ring
      rw [h2]
      obtain ⟨U, hU⟩ : ∃ U, U = (2 ^ 64) ^ bs.length * 2 ^ 64 * (up.toNat % 2 ^ 31) := ⟨_, rfl⟩
      rw [← hU] at h1 ⊢
      clear hU i2 h2
      have h3 := Nat.div_add_mod a.toNat (2 ^ 31)
      generalize a.toNat / 2 ^ 31 = qa at *
      generalize a.toNat % 2 ^ 31 = ra at *
      generalize b.toNat % 2 ^ 31 = rb at *
      linarith

theorem sgnMask_of_WI {w : UInt64} {f : ℤ} (h : WI w f) (hf : -2 ^ 63 ≤ f ∧ f < 2 ^ 63) :
    sgnw w = sgnMask (decide (f < 0)) := by
  rw [sgnw_WI h hf]; simp [sgnMask]

theorem neg_bool_and (c : Bool) (f : UInt64) :
    ((-c.toUInt64) &&& f).toNat = c.toNat * f.toNat := by
  cases c <;> simp [Bool.toUInt64]

theorem lindiv_final {L Z W u q d0 : ℤ} (hL : 0 ≤ L ∧ L < W) (hZ : -W < Z ∧ Z < W)
    (hd : 0 ≤ d0 ∧ d0 < 2 ^ 31) (hW : ∃ k, W = 2 ^ 31 * k)
    (h : 2 ^ 31 * L + d0 = 2 ^ 31 * Z - W * u + W * (u - 2 ^ 31 * q)) :
    d0 = 0 ∧ L = Z - W * q ∧ (Z < 0 → q = -1) ∧ (0 ≤ Z → q = 0) := by
  obtain ⟨k, hk⟩ := hW
  have h1 : d0 = 2 ^ 31 * (Z - W * q - L) := by linear_combination h
  have h2 : d0 = 0 := by omega
  have h3 : L = Z - W * q := by omega
  refine ⟨h2, h3, ?_, ?_⟩
  · intro hn
    rcases lt_trichotomy q (-1) with hq | hq | hq
    · have : W * q ≤ W * (-2) := mul_le_mul_of_nonneg_left (by omega) (by omega)
      omega
    · exact hq
    · have : W * 0 ≤ W * q := mul_le_mul_of_nonneg_left (by omega) (by omega)
      omega
  · intro hn
    rcases lt_trichotomy q 0 with hq | hq | hq
    · have : W * q ≤ W * (-1) := mul_le_mul_of_nonneg_left (by omega) (by omega)
      omega
    · exact hq
    · have : W * 1 ≤ W * q := mul_le_mul_of_nonneg_left (by omega) (by omega)
      omega

/-- `set_lindiv31abs` returns `|(f a + g b) / 2^31|` and the sign mask. -/
theorem lindiv31abs_spec {a b : Limbs} (hl : a.length = b.length) (ha : a ≠ []) {wf wg : UInt64}
    {f g Z : ℤ} (hf : WI wf f) (hg : WI wg g) (hs : |f| + |g| ≤ 2 ^ 31)
    (hZ : 2 ^ 31 * Z = f * lval a + g * lval b) :
    (fpLindiv31abs a b wf wg).1.length = a.length ∧
    lval (fpLindiv31abs a b wf wg).1 = Z.natAbs ∧
    (fpLindiv31abs a b wf wg).2 = sgnMask (decide (Z < 0)) := by
  have hf0 : |f| ≤ 2 ^ 31 := by have := abs_nonneg g; linarith
  have hg0 : |g| ≤ 2 ^ 31 := by have := abs_nonneg f; linarith
  have hfb := abs_le.mp hf0
  have hgb := abs_le.mp hg0
  have ef := condNegW_abs hf (by omega)
  have eg := condNegW_abs hg (by omega)
  have sf := sgnMask_of_WI hf (by omega)
  have sg := sgnMask_of_WI hg (by omega)
  have hsN : f.natAbs + g.natAbs ≤ 2 ^ 31 := by
    have : ((f.natAbs + g.natAbs : ℕ) : ℤ) ≤ 2 ^ 31 := by
      push_cast; exact hs
    exact_mod_cast this
  unfold fpLindiv31abs
  simp only
  rw [sf] at ef ⊢
  rw [sg] at eg ⊢
  generalize hF : condNegW wf (sgnMask (decide (f < 0))) = F at *
  generalize hG : condNegW wg (sgnMask (decide (g < 0))) = G at *
  obtain ⟨l1, l2, l3⟩ := lindivLoop_spec (decide (f < 0)) (decide (g < 0)) (f := F) (g := G)
    (by omega) hl false false 0 (by simp)
  generalize lindivLoop (sgnMask (decide (f < 0))) F (sgnMask (decide (g < 0))) G a b false false 0
    = r at *
  obtain ⟨d, c1, c2, c3⟩ := r
  simp only at l1 l2 l3 ⊢
  have hup : WI (c3 - (-c1.toUInt64 &&& F) - (-c2.toUInt64 &&& G))
      (c3.toNat - c1.toNat * F.toNat - c2.toNat * G.toNat) := by
    have := ((WI.ofNat c3).sub (WI.ofNat (-c1.toUInt64 &&& F))).sub (WI.ofNat (-c2.toUInt64 &&& G))
    rw [neg_bool_and, neg_bool_and] at this
    exact_mod_cast this
  have hubound : -2 ^ 32 ≤ (c3.toNat : ℤ) - c1.toNat * F.toNat - c2.toNat * G.toNat ∧
      (c3.toNat : ℤ) - c1.toNat * F.toNat - c2.toNat * G.toNat ≤ 2 ^ 32 := by
    cases c1 <;> cases c2 <;> simp <;> omega
  generalize hu : (c3.toNat : ℤ) - c1.toNat * F.toNat - c2.toNat * G.toNat = u at *
  have su := sgnMask_of_WI hup (by omega)
  rw [su]
  generalize c3 - (-c1.toUInt64 &&& F) - (-c2.toUInt64 &&& G) = up at *
  have hd : d ≠ [] := by intro h0; rw [h0] at l1; exact ha (List.length_eq_zero_iff.mp l1.symm)
  obtain ⟨k1, k2⟩ := shr31_spec d hd up
  rw [l1] at k1 k2
  have hWL := lval_lt (shr31 d up)
  rw [k1] at hWL
  have hWa := lval_lt a
  have hWb := lval_lt b
  rw [← hl] at hWb
  obtain ⟨q, hq⟩ : ∃ q : ℤ, ((up.toNat % 2 ^ 31 : ℕ) : ℤ) = u - 2 ^ 31 * q := by
    obtain ⟨k, hk⟩ := hup
    refine ⟨up.toNat / 2 ^ 31 + 2 ^ 33 * k, ?_⟩
    push_cast
    omega
  -- the signed total
  have htot : (lval d : ℤ) + (2 ^ 64) ^ a.length * u = 2 ^ 31 * Z := by
    rw [hZ, ← hu]
    have e1 : (f : ℤ) * lval a = F.toNat * (if decide (f < 0) = true then -(lval a : ℤ) else lval a) := by
      rw [ef]
      by_cases h0 : f < 0
      · simp only [h0, decide_true, if_true]
        have : (f.natAbs : ℤ) = -f := by omega
        rw [this]; ring
      · simp only [h0, decide_false, Bool.false_eq_true, if_false]
        have : (f.natAbs : ℤ) = f := by omega
        rw [this]
    have e2 : (g : ℤ) * lval b = G.toNat * (if decide (g < 0) = true then -(lval b : ℤ) else lval b) := by
      rw [eg]
      by_cases h0 : g < 0
      · simp only [h0, decide_true, if_true]
        have : (g.natAbs : ℤ) = -g := by omega
        rw [this]; ring
      · simp only [h0, decide_false, Bool.false_eq_true, if_false]
        have : (g.natAbs : ℤ) = g := by omega
        rw [this]
    rw [e1, e2]
    simp only [Bool.toNat_false, Nat.cast_zero, sub_zero, UInt64.toNat_zero, add_zero] at l3
    linear_combination l3
  have hWpos : (0 : ℤ) < (2 ^ 64) ^ a.length := by positivity
  have hZb : -((2 : ℤ) ^ 64) ^ a.length < Z ∧ Z < (2 ^ 64) ^ a.length := by
    have hA : (lval a : ℤ) ≤ (2 ^ 64) ^ a.length - 1 := by
      have : (lval a : ℤ) < (2 ^ 64) ^ a.length := by exact_mod_cast hWa
      omega
    have hB : (lval b : ℤ) ≤ (2 ^ 64) ^ a.length - 1 := by
      have : (lval b : ℤ) < (2 ^ 64) ^ a.length := by exact_mod_cast hWb
      omega
    have : |2 ^ 31 * Z| ≤ 2 ^ 31 * ((2 ^ 64) ^ a.length - 1) := by
      rw [hZ]
      calc |f * lval a + g * lval b| ≤ |f * lval a| + |g * lval b| := abs_add_le _ _
        _ = |f| * lval a + |g| * lval b := by
          rw [abs_mul, abs_mul, abs_of_nonneg (Int.natCast_nonneg (lval a)),
            abs_of_nonneg (Int.natCast_nonneg (lval b))]
        _ ≤ |f| * ((2 ^ 64) ^ a.length - 1) + |g| * ((2 ^ 64) ^ a.length - 1) :=
          add_le_add (mul_le_mul_of_nonneg_left hA (abs_nonneg _))
            (mul_le_mul_of_nonneg_left hB (abs_nonneg _))
        _ = (|f| + |g|) * ((2 ^ 64) ^ a.length - 1) := by ring
        _ ≤ _ := mul_le_mul_of_nonneg_right hs (by omega)
    have := abs_le.mp this
    constructor <;> omega
  have hWk : ∃ k : ℤ, ((2 : ℤ) ^ 64) ^ a.length = 2 ^ 31 * k := by
    obtain ⟨m, hm⟩ : ∃ m, a.length = m + 1 := ⟨a.length - 1, by
      have : a.length ≠ 0 := fun h => ha (List.length_eq_zero_iff.mp h)
      omega⟩
    exact ⟨(2 ^ 64) ^ m * 2 ^ 33, by rw [hm, pow_succ]; ring⟩
  have k2' : 2 ^ 31 * (lval (shr31 d up) : ℤ) + ((d.headD 0).toNat % 2 ^ 31 : ℕ)
      = lval d + (2 ^ 64) ^ a.length * (up.toNat % 2 ^ 31 : ℕ) := by exact_mod_cast k2
  rw [hq] at k2'
  obtain ⟨-, hL, q1, q0⟩ := lindiv_final (W := (2 ^ 64) ^ a.length) (u := u) (q := q)
    (d0 := ((d.headD 0).toNat % 2 ^ 31 : ℕ)) ⟨Int.natCast_nonneg (lval (shr31 d up)), by exact_mod_cast hWL⟩
    hZb (by omega) hWk (by linear_combination k2' + htot)
  have hsign : (u < 0) ↔ (Z < 0) := by
    have hdW : (lval d : ℤ) < (2 ^ 64) ^ a.length := by
      have := lval_lt d; rw [l1] at this; exact_mod_cast this
    have hdW0 : (0 : ℤ) ≤ lval d := Int.natCast_nonneg _
    constructor
    · intro h0
      have : ((2 : ℤ) ^ 64) ^ a.length * u ≤ (2 ^ 64) ^ a.length * (-1) :=
        mul_le_mul_of_nonneg_left (by omega) (by omega)
      omega
    · intro h0
      by_contra hc
      have : ((2 : ℤ) ^ 64) ^ a.length * 0 ≤ (2 ^ 64) ^ a.length * u :=
        mul_le_mul_of_nonneg_left (by omega) (by omega)
      omega
  simp only [hsign]
  obtain ⟨n1, e, n2⟩ := negLoop_spec (decide (Z < 0)) (shr31 d up) false
  rw [k1] at n1 n2
  refine ⟨n1, ?_, trivial⟩
  have hbound := lval_lt (negLoop (sgnMask (decide (Z < 0))) (shr31 d up) false)
  rw [n1] at hbound
  have hbound' : (lval (negLoop (sgnMask (decide (Z < 0))) (shr31 d up) false) : ℤ) <
    (2 ^ 64) ^ a.length := by exact_mod_cast hbound
  have hb0 : (0 : ℤ) ≤ lval (negLoop (sgnMask (decide (Z < 0))) (shr31 d up) false) :=
    Int.natCast_nonneg _
  generalize negLoop (sgnMask (decide (Z < 0))) (shr31 d up) false = res at *
  generalize ((2 : ℤ) ^ 64) ^ a.length = W at *
  by_cases hz : Z < 0
  · simp only [hz, decide_true, if_true, Bool.toNat_false, Nat.cast_zero, sub_zero] at n2
    rw [hL, q1 hz] at n2
    cases e <;> simp at n2 <;> omega
  · simp only [hz, decide_false, Bool.false_eq_true, if_false, Bool.toNat_false, Nat.cast_zero, sub_zero] at n2
    rw [hL, q0 (by omega)] at n2
    cases e <;> simp at n2 <;> omega

end Festa
