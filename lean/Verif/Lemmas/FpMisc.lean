import Verif.Lemmas.FpMul
import Mathlib.Data.ZMod.Basic
/-! Halving, small multiples, fused products over limbs: exact integer statements. -/
namespace Festa

variable {P : FpParams}

theorem neg_and_one_cases (x : UInt64) :
    (-(x &&& 1) = (0 : UInt64) ∧ x.toNat % 2 = 0) ∨ (-(x &&& 1) = (-1 : UInt64) ∧ x.toNat % 2 = 1) := by
  have h : (x &&& 1).toNat = x.toNat % 2 := by
    rw [UInt64.toNat_and]; exact Nat.and_one_is_mod _
  rcases Nat.mod_two_eq_zero_or_one x.toNat with h0 | h0
  · left
    have : x &&& 1 = 0 := UInt64.toNat_inj.1 (by rw [h, h0]; rfl)
    exact ⟨by rw [this]; rfl, h0⟩
  · right
    have : x &&& 1 = 1 := UInt64.toNat_inj.1 (by rw [h, h0]; rfl)
    exact ⟨by rw [this], h0⟩

theorem shr1_or_toNat (x y : UInt64) :
    ((x >>> 1) ||| (y <<< 63)).toNat = x.toNat / 2 + 2 ^ 63 * (y.toNat % 2) := by
  have hx := x.toNat_lt
  rw [UInt64.toNat_or, UInt64.toNat_shiftLeft, UInt64.toNat_shiftRight,
    show (1 : UInt64).toNat % 64 = 1 from rfl, show (63 : UInt64).toNat % 64 = 63 from rfl]
  have e : (y.toNat <<< 63) % 2 ^ 64 = (y.toNat % 2) <<< 63 := by
    rw [Nat.shiftLeft_eq, Nat.shiftLeft_eq]; omega
  rw [e, Nat.or_comm, ← Nat.shiftLeft_add_eq_or_of_lt, Nat.shiftLeft_eq, Nat.shiftRight_eq_div_pow]
  · omega
  · rw [Nat.shiftRight_eq_div_pow]; omega

theorem halfLoop_spec (mm : UInt64) (x h : Limbs) (hl : x.length = h.length) (hx : 1 ≤ x.length)
    (cc : Bool) :
    (halfLoop mm x h cc).length = x.length ∧ ∃ c : Bool,
    lval (halfLoop mm x h cc) + (2 ^ 64) ^ x.length * c.toNat
      = lval x / 2 + lval (h.map (mm &&& ·)) + cc.toNat := by
  induction x generalizing h cc with
  | nil => simp at hx
  | cons a as ih =>
    rcases h with _ | ⟨b, bs⟩
    · simp at hl
    rcases as with _ | ⟨a1, as⟩
    · have : bs = [] := by simpa using hl.symm
      subst this
      have e := addcarry_spec (a >>> 1) (mm &&& b) cc
      have e2 : (a >>> 1).toNat = a.toNat / 2 := by
        rw [UInt64.toNat_shiftRight]; rfl
      rw [e2] at e
      refine ⟨rfl, (addcarry (a >>> 1) (mm &&& b) cc).2, ?_⟩
      simp only [halfLoop, lval_cons, lval_nil, List.map_cons, List.map_nil, List.length_cons,
        List.length_nil, zero_add, pow_one, mul_zero, add_zero]
      exact e
    · have e := addcarry_spec ((a >>> 1) ||| (a1 <<< 63)) (mm &&& b) cc
      rw [shr1_or_toNat] at e
      obtain ⟨l, c, e2⟩ := ih bs (by simpa using hl) (by simp)
        (addcarry ((a >>> 1) ||| (a1 <<< 63)) (mm &&& b) cc).2
      unfold halfLoop
      simp only
      refine ⟨by rw [List.length_cons, l]; rfl, c, ?_⟩
      rw [List.length_cons, Wsucc, lval_cons, List.map_cons, lval_cons a, lval_cons (mm &&& b)]
      have e3 : (a.toNat + 2 ^ 64 * lval (a1 :: as)) / 2 = a.toNat / 2 + 2 ^ 63 * lval (a1 :: as) := by
        omega
      have e4 : lval (a1 :: as) = 2 * (lval (a1 :: as) / 2) + a1.toNat % 2 := by
        have : lval (a1 :: as) % 2 = a1.toNat % 2 := by rw [lval_cons]; omega
        omega
      rw [e3]
      linear_combination e + 2 ^ 64 * e2 + 2 ^ 63 * e4.symm

theorem headD_mod_two (x : Limbs) : (x.headD 0).toNat % 2 = lval x % 2 := by
  cases x with
  | nil => rfl
  | cons a as => simp only [List.headD_cons, lval_cons]; omega

/-- `set_half`: twice the result is the input modulo `p`. -/
theorem fpHalf_lval (hV : P.Valid) {a : Limbs} (ha : Reduced P a) :
    Reduced P (fpHalf P a) ∧ 2 * lval (fpHalf P a) ≡ lval a [MOD P.p] := by
  have hN := hV.N_two
  have hodd := hV.odd
  have hh := hV.half
  have hA := ha.2
  obtain ⟨l, c, e⟩ := halfLoop_spec (-((a.headD 0) &&& 1)) a P.HALF_MODULUS
    (by rw [ha.1, hV.half_len]) (by rw [ha.1]; omega) false
  rw [ha.1, ← P.R_def] at e
  have l' : (fpHalf P a).length = P.N := by unfold fpHalf; rw [l, ha.1]
  have hR := p_lt_R hV
  have h2 := headD_mod_two a
  have hlt := lval_lt_R (P := P) l'
  change lval (fpHalf P a) + P.R * c.toNat = _ at e
  rcases neg_and_one_cases (a.headD 0) with ⟨hm, hpar⟩ | ⟨hm, hpar⟩
  · rw [hm, lval_map_zero_and] at e
    simp only [Bool.toNat_false, add_zero] at e
    have hc : c = false := by
      cases c
      · rfl
      · simp at e; omega
    rw [hc] at e; simp at e
    refine ⟨⟨l', by omega⟩, ?_⟩
    have : 2 * lval (fpHalf P a) = lval a := by omega
    rw [this]
  · rw [hm, lval_map_neg_one_and, hh] at e
    simp only [Bool.toNat_false, add_zero] at e
    have hc : c = false := by
      cases c
      · rfl
      · simp at e; omega
    rw [hc] at e; simp at e
    refine ⟨⟨l', by omega⟩, ?_⟩
    have : 2 * lval (fpHalf P a) = lval a + P.p := by omega
    rw [this]; unfold Nat.ModEq; simp

theorem mul2Loop_spec {x m : Limbs} (h : x.length = m.length) (tb : UInt64) (ht : tb.toNat ≤ 1)
    (cc : Bool) :
    (mul2Loop x m tb cc).1.length = x.length ∧ (mul2Loop x m tb cc).2.1.toNat ≤ 1 ∧
    lval (mul2Loop x m tb cc).1 + lval m + cc.toNat +
        (2 ^ 64) ^ x.length * (mul2Loop x m tb cc).2.1.toNat
      = 2 * lval x + tb.toNat + (2 ^ 64) ^ x.length * (mul2Loop x m tb cc).2.2.toNat := by
  induction x generalizing m tb cc with
  | nil =>
    have : m = [] := by simpa using h.symm
    subst this; simp [mul2Loop, ht]; omega
  | cons w ws ih =>
    rcases m with _ | ⟨b, bs⟩
    · simp at h
    have e1 := shl1_or_toNat w tb ht
    have e2 := subborrow_spec ((w <<< 1) ||| tb) b cc
    obtain ⟨l, hb, e3⟩ := ih (m := bs) (by simpa using h) (w >>> 63) (shr63_le w)
      (subborrow ((w <<< 1) ||| tb) b cc).2
    simp only [mul2Loop, lval_cons, List.length_cons, Wsucc]
    refine ⟨by rw [l], hb, ?_⟩
    linear_combination e1 + e2 + 2 ^ 64 * e3

theorem fpMul2_lval (hV : P.Valid) {a : Limbs} (ha : Reduced P a) :
    Reduced P (fpMul2 P a) ∧ lval (fpMul2 P a) = 2 * lval a % P.p := by
  have hl : a.length = P.MODULUS.length := by rw [ha.1, hV.len]
  have hA := ha.2
  have hR := p_lt_R hV
  obtain ⟨l, hb, e⟩ := mul2Loop_spec hl 0 (by simp) false
  rw [ha.1, ← P.R_def, ← P.p_def] at e
  have l' := l.trans ha.1
  have hlt := lval_lt_R (P := P) l'
  unfold fpMul2
  simp only
  generalize mul2Loop a P.MODULUS 0 false = r at *
  obtain ⟨d, tb, cc⟩ := r
  simp only [Bool.toNat_false, UInt64.toNat_zero, add_zero] at *
  have htb : tb = 0 ∨ tb = 1 := by
    rcases Nat.le_one_iff_eq_zero_or_eq_one.1 hb with h | h
    · left; exact UInt64.toNat_inj.1 h
    · right; exact UInt64.toNat_inj.1 h
  have key : ∀ r : Limbs, r.length = P.N → (lval r = if 2 * lval a < P.p then 2 * lval a
      else 2 * lval a - P.p) → Reduced P r ∧ lval r = 2 * lval a % P.p := by
    intro r hr hv
    have : lval r = 2 * lval a % P.p := by
      rw [hv]; split_ifs with hc
      · rw [Nat.mod_eq_of_lt hc]
      · rw [Nat.mod_eq_sub_mod (by omega), Nat.mod_eq_of_lt (by omega)]
    exact ⟨⟨hr, by rw [this]; exact Nat.mod_lt _ (p_pos hV)⟩, this⟩
  rcases htb with rfl | rfl <;> cases cc <;>
    simp only [Bool.toNat_false, Bool.toNat_true, UInt64.toNat_zero, UInt64.toNat_one,
      mul_zero, mul_one, add_zero] at e
  · have : (0 : UInt64) - false.toUInt64 = 0 := rfl
    rw [this, addBack_zero hV l']
    apply key _ l'
    rw [if_neg (by omega)]; omega
  · have : (0 : UInt64) - true.toUInt64 = -1 := rfl
    rw [this]
    obtain ⟨h3, c, h2⟩ := addBack_neg_one hV l'
    have h4 := lval_lt_R (P := P) h3
    apply key _ h3
    rw [if_pos (by omega)]
    cases c <;> simp at h2 <;> omega
  · omega
  · have : (1 : UInt64) - true.toUInt64 = 0 := rfl
    rw [this, addBack_zero hV l']
    apply key _ l'
    rw [if_neg (by omega)]; omega

/-! ### `set_mul_small` -/

theorem subMulLoop_spec (b : UInt64) {x m : Limbs} (h : x.length = m.length) (c1 : UInt64)
    (c2 : Bool) :
    (subMulLoop b x m c1 c2).1.length = x.length ∧
    lval (subMulLoop b x m c1 c2).1 + b.toNat * lval m + c1.toNat + c2.toNat
      = lval x + (2 ^ 64) ^ x.length *
        ((subMulLoop b x m c1 c2).2.1.toNat + (subMulLoop b x m c1 c2).2.2.toNat) := by
  induction x generalizing m c1 c2 with
  | nil =>
    have : m = [] := by simpa using h.symm
    subst this; simp [subMulLoop]
  | cons w ws ih =>
    rcases m with _ | ⟨y, ys⟩
    · simp at h
    have e1 := umullAdd_spec b y c1
    have e2 := subborrow_spec w (umullAdd b y c1).1 c2
    obtain ⟨l, e3⟩ := ih (m := ys) (by simpa using h) (umullAdd b y c1).2
      (subborrow w (umullAdd b y c1).1 c2).2
    simp only [subMulLoop, lval_cons, List.length_cons, Wsucc]
    refine ⟨by rw [l], ?_⟩
    linear_combination e1.symm + e2 + 2 ^ 64 * e3

/-- Granlund-Montgomery division over the integers. -/
theorem gm_div {x d m t lo : Nat} (hd : 0 < d) (hd32 : d < 2 ^ 32) (hx : x < 2 ^ 64)
    (h1 : d * m + d * 2 ^ 64 ≤ 2 ^ 96 + d) (h2 : 2 ^ 96 < d * m + d * 2 ^ 64) (hlo : lo < 2 ^ 64)
    (ht : lo + 2 ^ 64 * t = x * m) : (x + t) / 2 ^ 32 = x / d := by
  have hxd := Nat.div_add_mod x d
  have hxm := Nat.mod_lt x hd
  generalize hQ : x / d = Q at *
  generalize hr : x % d = r at *
  have e1 : x * (2 ^ 64 + m) = 2 ^ 64 * (x + t) + lo := by
    rw [mul_add, ← ht]; ring
  have hup : x * (2 ^ 64 + m) < (Q + 1) * 2 ^ 96 := by
    have k1 : d * (x * (2 ^ 64 + m)) ≤ x * (2 ^ 96 + d) := by
      calc d * (x * (2 ^ 64 + m)) = x * (d * m + d * 2 ^ 64) := by ring
        _ ≤ _ := Nat.mul_le_mul_left _ h1
    have k2 : x * (2 ^ 96 + d) < d * ((Q + 1) * 2 ^ 96) := by
      have k3 : x * d < 2 ^ 64 * 2 ^ 32 := Nat.mul_lt_mul'' hx hd32
      have k4 : x + 1 ≤ d * (Q + 1) := by rw [mul_add, mul_one]; omega
      calc x * (2 ^ 96 + d) = x * 2 ^ 96 + x * d := by ring
        _ < x * 2 ^ 96 + 2 ^ 64 * 2 ^ 32 := by omega
        _ = (x + 1) * 2 ^ 96 := by ring
        _ ≤ (d * (Q + 1)) * 2 ^ 96 := Nat.mul_le_mul_right _ k4
        _ = _ := by ring
    exact Nat.lt_of_mul_lt_mul_left (lt_of_le_of_lt k1 k2)
  have hlow : Q * 2 ^ 96 ≤ x * (2 ^ 64 + m) := by
    have k1 : Q * 2 ^ 96 ≤ Q * (d * m + d * 2 ^ 64) := Nat.mul_le_mul_left _ h2.le
    have k2 : (d * Q) * (2 ^ 64 + m) ≤ x * (2 ^ 64 + m) := Nat.mul_le_mul_right _ (by omega)
    calc _ ≤ _ := k1
      _ = (d * Q) * (2 ^ 64 + m) := by ring
      _ ≤ _ := k2
  rw [e1] at hup hlow
  have k1 : Q * 2 ^ 96 = 2 ^ 64 * (Q * 2 ^ 32) := by ring
  have k2 : (Q + 1) * 2 ^ 96 = 2 ^ 64 * ((Q + 1) * 2 ^ 32) := by ring
  rw [k1] at hlow
  rw [k2] at hup
  refine Nat.div_eq_of_lt_le ?_ ?_
  · omega
  · show x + t < (Q + 1) * 2 ^ 32
    omega

/-- Granlund-Montgomery division by `P1`. -/
theorem smallQuot_spec (hV : P.Valid) (x1 : UInt64) (h31 : 2 ^ 31 ≤ P.P1.toNat)
    (h32 : P.P1.toNat < 2 ^ 32) (hb : x1.toNat / P.P1.toNat ≤ P.P1.toNat) :
    (smallQuot P x1).toNat = x1.toNat / P.P1.toNat := by
  have hm := hV.p1div
  have hmlt := P.P1DIV_M.toNat_lt
  have hxlt := x1.toNat_lt
  have ht := umull_spec x1 P.P1DIV_M
  have htlo := (umull x1 P.P1DIV_M).1.toNat_lt
  generalize hd : P.P1.toNat = d at *
  generalize hmm : P.P1DIV_M.toNat = m at *
  generalize hx : x1.toNat = x at *
  generalize htt : (umull x1 P.P1DIV_M).2 = t at *
  have hdpos : 0 < d := by omega
  -- m*d bounds
  have hdm := Nat.div_add_mod ((2 ^ 32 - d) * 2 ^ 64) d
  have hml := Nat.mod_lt ((2 ^ 32 - d) * 2 ^ 64) hdpos
  have hMd : d * m + d * 2 ^ 64 ≤ 2 ^ 96 + d ∧ 2 ^ 96 < d * m + d * 2 ^ 64 := by
    have e : d * m = d + d * ((2 ^ 32 - d) * 2 ^ 64 / d) := by rw [hm]; ring
    rw [e]
    generalize d * ((2 ^ 32 - d) * 2 ^ 64 / d) = K at *
    constructor <;> omega
  have htx : t.toNat ≤ x := by
    have h1 : 2 ^ 64 * t.toNat ≤ x * m := by omega
    have h2 : x * m ≤ x * 2 ^ 64 := Nat.mul_le_mul_left _ hmlt.le
    omega
  have hq1 : (((x1 - t) >>> 1) + t).toNat = (x + t.toNat) / 2 := by
    rw [UInt64.toNat_add, UInt64.toNat_shiftRight,
      UInt64.toNat_sub_of_le _ _ (by rw [UInt64.le_iff_toNat_le, hx]; exact htx), hx,
      show (1 : UInt64).toNat % 64 = 1 from rfl, Nat.shiftRight_eq_div_pow]
    rw [Nat.mod_eq_of_lt] <;> omega
  have hq2 : ((((x1 - t) >>> 1) + t) >>> 31).toNat = (x + t.toNat) / 2 ^ 32 := by
    rw [UInt64.toNat_shiftRight, hq1, show (31 : UInt64).toNat % 64 = 31 from rfl,
      Nat.shiftRight_eq_div_pow]
    omega
  have hq3 : (x + t.toNat) / 2 ^ 32 = x / d :=
    gm_div hdpos h32 hxlt hMd.1 hMd.2 htlo (by rw [ht])
  unfold smallQuot
  simp only
  rw [htt]
  have hle : ((((x1 - t) >>> 1) + t) >>> 31) ≤ P.P1 := by
    rw [UInt64.le_iff_toNat_le, hq2, hq3, hd]; exact hb
  have hz : (P.P1 - ((((x1 - t) >>> 1) + t) >>> 31)) >>> 63 = 0 := by
    apply UInt64.toNat_inj.1
    rw [UInt64.toNat_shiftRight, UInt64.toNat_sub_of_le _ _ hle,
      show (63 : UInt64).toNat % 64 = 63 from rfl, Nat.shiftRight_eq_div_pow, hd]
    have : (d - ((((x1 - t) >>> 1) + t) >>> 31).toNat) / 2 ^ 63 = 0 := Nat.div_eq_of_lt (by omega)
    rw [this]; rfl
  rw [hz]
  simp only [UInt64.add_zero]
  rw [hq2, hq3]

theorem getD_getElem {α : Type*} {x : List α} (d : α) {i : Nat} (h : i < x.length) :
    x.getD i d = x[i] := by
  simp [List.getD, List.getElem?_eq_getElem h]

theorem lval_top2 {x : Limbs} (h : 2 ≤ x.length) :
    ∃ lo, lo < (2 ^ 64) ^ (x.length - 2) ∧
      lval x = lo + (2 ^ 64) ^ (x.length - 2) *
        ((x.getD (x.length - 2) 0).toNat + 2 ^ 64 * (x.getD (x.length - 1) 0).toNat) := by
  have e := lval_take_drop (x.length - 2) x (by omega)
  refine ⟨lval (x.take (x.length - 2)), ?_, ?_⟩
  · have := lval_lt (x.take (x.length - 2))
    rwa [List.length_take, min_eq_left (by omega)] at this
  · rw [← e]
    congr 2
    have hd : x.drop (x.length - 2) = [x.getD (x.length - 2) 0, x.getD (x.length - 1) 0] := by
      rw [List.drop_eq_getElem_cons (by omega), List.drop_eq_getElem_cons (by omega),
        List.drop_eq_nil_of_le (by omega)]
      rw [getD_getElem _ (by omega), getD_getElem _ (by omega)]
      congr 2
      congr 1
      omega
    rw [hd]
    simp [lval_cons]

theorem lval_top1 {x : Limbs} (h : 1 ≤ x.length) :
    ∃ lo, lo < (2 ^ 64) ^ (x.length - 1) ∧ lval x = lo + (2 ^ 64) ^ (x.length - 1) * (x.getD (x.length - 1) 0).toNat := by
  have e := lval_take_drop (x.length - 1) x (by omega)
  refine ⟨lval (x.take (x.length - 1)), ?_, ?_⟩
  · have := lval_lt (x.take (x.length - 1))
    rwa [List.length_take, min_eq_left (by omega)] at this
  · rw [← e]
    congr 2
    rw [List.drop_eq_getElem_cons (by omega), List.drop_eq_nil_of_le (by omega), getD_getElem _ (by omega)]
    simp [lval_cons]

/-- Joining two words: the bits of `t` from `s` on below the bits of `u`. -/
theorem join_words (t u : UInt64) {s : Nat} (h0 : 0 < s) (h1 : s < 64) (hu : u.toNat < 2 ^ s) :
    ((u <<< UInt64.ofNat (64 - s)) ||| (t >>> UInt64.ofNat s)).toNat = (t.toNat + 2 ^ 64 * u.toNat) / 2 ^ s := by
  rw [UInt64.toNat_or, UInt64.toNat_shiftLeft, UInt64.toNat_shiftRight]
  have s1 : (UInt64.ofNat (64 - s)).toNat % 64 = 64 - s := by
    rw [UInt64.toNat_ofNat', Nat.mod_eq_of_lt (a := 64 - s) (by omega), Nat.mod_eq_of_lt (by omega)]
  have s2 : (UInt64.ofNat s).toNat % 64 = s := by
    rw [UInt64.toNat_ofNat', Nat.mod_eq_of_lt (a := s) (by omega), Nat.mod_eq_of_lt (by omega)]
  rw [s1, s2]
  have h64 : (2 : Nat) ^ 64 = 2 ^ s * 2 ^ (64 - s) := by
    rw [← pow_add]; congr 1; omega
  have h3 : u.toNat <<< (64 - s) % 2 ^ 64 = u.toNat <<< (64 - s) := by
    apply Nat.mod_eq_of_lt
    rw [Nat.shiftLeft_eq, h64]
    exact Nat.mul_lt_mul_of_pos_right hu (by positivity)
  rw [h3, ← Nat.shiftLeft_add_eq_or_of_lt, Nat.shiftLeft_eq, Nat.shiftRight_eq_div_pow]
  · rw [h64, mul_assoc, Nat.add_mul_div_left _ _ (by positivity)]; ring
  · rw [Nat.shiftRight_eq_div_pow]
    apply Nat.div_lt_of_lt_mul
    rw [← h64]; exact t.toNat_lt

theorem smallTop_spec (hV : P.Valid) {x : Limbs} (hx : x.length = P.N) (hi : UInt64)
    (hlt : lval x + P.R * hi.toNat < 2 ^ (P.BITLEN + 31)) :
    (smallTop P x hi).toNat = (lval x + P.R * hi.toNat) / 2 ^ (P.BITLEN - 32) := by
  have hN := hV.N_two
  obtain ⟨hbN, hbN'⟩ := hV.bitlen_N
  have hbl : P.BITLEN &&& 63 = P.BITLEN % 64 := Nat.and_two_pow_sub_one_eq_mod P.BITLEN 6
  have h64 := Nat.mod_lt P.BITLEN (show 0 < 64 by norm_num)
  unfold smallTop
  simp only
  rw [hbl]
  have hR : P.R = 2 ^ (64 * P.N) := by rw [P.R_def, ← pow_mul]
  -- the upper word of two adjacent words is small
  have small : ∀ {k s : Nat} {lo t u : Nat}, lo + 2 ^ (64 * k) * (t + 2 ^ 64 * u) < 2 ^ (P.BITLEN + 31) →
      P.BITLEN + 31 = 64 * k + 64 + s → u < 2 ^ s := by
    intro k s lo t u h e
    have h1 : 2 ^ (64 * k) * (2 ^ 64 * u) < 2 ^ (64 * k) * (2 ^ 64 * 2 ^ s) := by
      calc _ ≤ lo + 2 ^ (64 * k) * (t + 2 ^ 64 * u) := by rw [mul_add]; omega
        _ < _ := h
        _ = _ := by rw [← pow_add, ← pow_add]; congr 1; omega
    exact Nat.lt_of_mul_lt_mul_left (Nat.lt_of_mul_lt_mul_left h1)
  have quot : ∀ {k s : Nat} {lo w : Nat}, lo < 2 ^ (64 * k) → P.BITLEN = 64 * k + (32 + s) →
      (lo + 2 ^ (64 * k) * w) / 2 ^ (P.BITLEN - 32) = w / 2 ^ s := by
    intro k s lo w hlo e
    have : P.BITLEN - 32 = 64 * k + s := by omega
    rw [this, pow_add, ← Nat.div_div_eq_div_mul, Nat.add_mul_div_left _ _ (by positivity),
      Nat.div_eq_of_lt hlo, zero_add]
  obtain ⟨lo, hlo, e⟩ := lval_top1 (x := x) (by omega)
  rw [hx, ← pow_mul] at hlo e
  have hR1 : P.R = 2 ^ (64 * (P.N - 1)) * 2 ^ 64 := by rw [hR, ← pow_add]; congr 1; omega
  have full : lval x + P.R * hi.toNat = lo + 2 ^ (64 * (P.N - 1)) * ((x.getD (P.N - 1) 0).toNat + 2 ^ 64 * hi.toNat) := by
    rw [e, hR1]; ring
  have hi0 : P.BITLEN + 31 ≤ 64 * P.N → hi.toNat = 0 := by
    intro hb
    by_contra hne
    have h1 : P.R * 1 ≤ P.R * hi.toNat := Nat.mul_le_mul_left _ (by omega)
    have h2 : 2 ^ (P.BITLEN + 31) ≤ P.R := by rw [hR]; exact Nat.pow_le_pow_right (by norm_num) hb
    omega
  split_ifs with b0 b1 b2
  · rw [full] at hlt ⊢
    rw [quot hlo (s := 32) (by omega)]
    rw [UInt64.or_comm]
    have h := small hlt (s := 31) (by omega)
    generalize x.getD (P.N - 1) 0 = t at *
    exact join_words t hi (s := 32) (by norm_num) (by norm_num) (h.trans (by norm_num))
  · obtain ⟨lo, hlo, e⟩ := lval_top2 (x := x) (by omega)
    rw [hx, ← pow_mul] at hlo e
    have hhi := hi0 (by omega)
    rw [hhi, mul_zero, add_zero, e] at hlt ⊢
    rw [quot hlo (s := 32 + P.BITLEN % 64) (by omega)]
    have hs := small hlt (s := P.BITLEN % 64 + 31) (by omega)
    rw [show 32 - P.BITLEN % 64 = 64 - (32 + P.BITLEN % 64) by omega]
    exact join_words _ _ (by omega) (by omega) (hs.trans (Nat.pow_lt_pow_right (by norm_num) (by omega)))
  · have hhi := hi0 (by omega)
    rw [hhi, mul_zero, add_zero, e, quot hlo (s := 0) (by omega), pow_zero, Nat.div_one]
  · rw [full] at hlt ⊢
    rw [quot hlo (s := P.BITLEN % 64 - 32) (by omega), show 96 - P.BITLEN % 64 = 64 - (P.BITLEN % 64 - 32) by omega]
    exact join_words _ _ (by omega) (by omega) ((small hlt (s := P.BITLEN % 64 - 33) (by omega)).trans
      (Nat.pow_lt_pow_right (by norm_num) (by omega)))

theorem smallFix_spec (hV : P.Valid) {x : Limbs} (hx : x.length = P.N) :
    smallFix P (x, 0) = (x, 0) ∧
    (P.R ≤ lval x + P.p → (smallFix P (x, -1)).1.length = P.N ∧ (smallFix P (x, -1)).2 = 0 ∧
      lval (smallFix P (x, -1)).1 + P.R = lval x + P.p) := by
  have hR := p_lt_R hV
  constructor
  · have h := addBack_zero hV hx
    unfold addBack at h
    have e := addLoop_spec (x := x) (y := P.MODULUS.map ((0 : UInt64) &&& ·))
      (by rw [List.length_map, hV.len, hx]) false
    rw [h, lval_map_zero_and] at e
    unfold smallFix
    simp only
    rw [show sgnw 0 = 0 from rfl, h]
    have hc : (addLoop x (P.MODULUS.map ((0 : UInt64) &&& ·)) false).2 = false := by
      cases hcc : (addLoop x (P.MODULUS.map ((0 : UInt64) &&& ·)) false).2
      · rfl
      · rw [hcc] at e
        simp at e
    rw [hc]; rfl
  · intro hge
    have e := addLoop_spec (x := x) (y := P.MODULUS) (by rw [hV.len, hx]) false
    have l := addLoop_length (x := x) (y := P.MODULUS) (by rw [hV.len, hx]) false
    unfold smallFix
    simp only
    rw [show sgnw (-1) = -1 from rfl, lval_map_neg_one_and]
    rw [hx, ← P.R_def, ← P.p_def] at e
    have hlt := lval_lt_R (P := P) (l.trans hx)
    cases hcc : (addLoop x P.MODULUS false).2
    · rw [hcc] at e; simp at e; omega
    · rw [hcc] at e; simp at e
      exact ⟨l.trans hx, rfl, e⟩

theorem p_ge (hV : P.Valid) : P.P1.toNat * 2 ^ (P.BITLEN - 32) ≤ P.p ∧
    P.p < (P.P1.toNat + 1) * 2 ^ (P.BITLEN - 32) ∧ 2 ^ 31 < P.P1.toNat ∧ P.P1.toNat < 2 ^ 32 := by
  have hb := hV.bitlen
  have h34 := hV.bitlen_34
  have h1 := hV.p1
  have hdm := Nat.div_add_mod P.p (2 ^ (P.BITLEN - 32))
  have hml := Nat.mod_lt P.p (show 0 < 2 ^ (P.BITLEN - 32) by positivity)
  rw [← h1] at hdm
  have e1 : (2 : Nat) ^ (P.BITLEN - 1) = 2 ^ 31 * 2 ^ (P.BITLEN - 32) := by
    rw [← pow_add]; congr 1; omega
  have e2 : (2 : Nat) ^ P.BITLEN = 2 ^ 32 * 2 ^ (P.BITLEN - 32) := by
    rw [← pow_add]; congr 1; omega
  rw [e1, e2] at hb
  have hge : 2 ^ 31 ≤ P.P1.toNat := by
    rw [h1, Nat.le_div_iff_mul_le (by positivity)]; exact hb.1
  have hlt : P.P1.toNat < 2 ^ 32 := by
    rw [h1, Nat.div_lt_iff_lt_mul (by positivity)]; exact hb.2
  have hne : P.P1.toNat ≠ 2 ^ 31 := by
    intro h
    have hm := hV.p1div
    have := P.P1DIV_M.toNat_lt
    rw [h] at hm
    norm_num at hm
    omega
  refine ⟨by rw [mul_comm]; omega, by rw [add_mul, one_mul, mul_comm]; omega, by omega, hlt⟩

/-- The quotient estimate is off by less than one modulus on either side. -/
theorem small_bounds {p d M X b : Nat} (hp1 : d * M ≤ p) (hp2 : p < (d + 1) * M) (hd : 0 < d)
    (hM : 0 < M) {x1 : Nat} (hb : b = x1 / d) (hble : b ≤ 2 ^ 31) (h31 : 2 ^ 31 < d) (hp : 0 < p) :
    x1 = X / M → X < b * p + p ∧ b * p < X + p := by
  intro hx1
  have hxd := Nat.div_add_mod x1 d
  have hxm := Nat.mod_lt x1 hd
  have hdm := Nat.div_add_mod X M
  have hml := Nat.mod_lt X hM
  rw [← hb] at hxd
  rw [← hx1] at hdm
  constructor
  · have h1 : X < (x1 + 1) * M := by rw [add_mul, one_mul, mul_comm x1]; omega
    have h0 : x1 + 1 ≤ (b + 1) * d := by rw [add_mul, one_mul, mul_comm b]; omega
    have h2 : (x1 + 1) * M ≤ ((b + 1) * d) * M := Nat.mul_le_mul_right _ h0
    have h3 : (b + 1) * (d * M) ≤ (b + 1) * p := Nat.mul_le_mul_left _ hp1
    rw [mul_assoc] at h2
    calc X < _ := h1
      _ ≤ _ := h2
      _ ≤ _ := h3
      _ = b * p + p := by ring
  · rcases Nat.eq_zero_or_pos b with h0 | hpos
    · rw [h0]; omega
    have h1 : b * p < b * ((d + 1) * M) := Nat.mul_lt_mul_of_pos_left hp2 hpos
    have h2 : b * ((d + 1) * M) ≤ x1 * M + b * M := by
      have : d * b ≤ x1 := by omega
      calc b * ((d + 1) * M) = (d * b) * M + b * M := by ring
        _ ≤ _ := Nat.add_le_add_right (Nat.mul_le_mul_right _ this) _
    have h3 : b * M ≤ p := le_trans (Nat.mul_le_mul_right _ (by omega)) hp1
    have h4 : x1 * M ≤ X := by rw [mul_comm]; omega
    omega

/-- The unsigned core of `set_mul_small`. -/
theorem mulSmall_core (hV : P.Valid) {a : Limbs} (ha : Reduced P a) (k : UInt64)
    (hk : k.toNat ≤ 2 ^ 31) (x : Limbs) (hi : UInt64) (hx : mulWordLoop k a 0 = (x, hi)) :
    Reduced P (smallFix P (smallFix P
      ((subMulLoop (smallQuot P (smallTop P x hi)) x P.MODULUS 0 false).1,
        (subborrow hi (subMulLoop (smallQuot P (smallTop P x hi)) x P.MODULUS 0 false).2.1
          (subMulLoop (smallQuot P (smallTop P x hi)) x P.MODULUS 0 false).2.2).1))).1 ∧
    lval (smallFix P (smallFix P
      ((subMulLoop (smallQuot P (smallTop P x hi)) x P.MODULUS 0 false).1,
        (subborrow hi (subMulLoop (smallQuot P (smallTop P x hi)) x P.MODULUS 0 false).2.1
          (subMulLoop (smallQuot P (smallTop P x hi)) x P.MODULUS 0 false).2.2).1))).1
      = lval a * k.toNat % P.p := by
  have hN := hV.N_two
  obtain ⟨hp1, hp2, h31, h32⟩ := p_ge hV
  have hb := hV.bitlen
  have hbN := hV.bitlen_N
  have h34 := hV.bitlen_34
  have hpR := p_lt_R hV
  have hA := ha.2
  have e := mulWordLoop_spec k a 0
  have l := mulWordLoop_length k a 0
  rw [hx, ha.1, ← P.R_def] at e
  rw [hx] at l
  simp only [UInt64.toNat_zero, add_zero] at e l
  have hxN : x.length = P.N := l.trans ha.1
  have hXlt : lval a * k.toNat < P.p * 2 ^ 31 := by
    calc lval a * k.toNat ≤ lval a * 2 ^ 31 := Nat.mul_le_mul_left _ hk
      _ < P.p * 2 ^ 31 := Nat.mul_lt_mul_of_pos_right hA (by norm_num)
  have hXlt2 : lval a * k.toNat < 2 ^ (P.BITLEN + 31) := by
    rw [pow_add]
    calc _ < P.p * 2 ^ 31 := hXlt
      _ ≤ _ := Nat.mul_le_mul_right _ hb.2.le
  have htop := smallTop_spec hV hxN hi (by rw [e]; exact hXlt2)
  generalize hX1 : smallTop P x hi = x1 at *
  generalize hM : (2 : Nat) ^ (P.BITLEN - 32) = M at *
  have hMpos : 0 < M := by rw [← hM]; positivity
  generalize hd : P.P1.toNat = d at *
  generalize hXX : lval a * k.toNat = X at *
  have hdm := Nat.div_add_mod X M
  have hml := Nat.mod_lt X hMpos
  rw [e] at htop
  have hx1lt : x1.toNat < (d + 1) * 2 ^ 31 := by
    rw [htop, Nat.div_lt_iff_lt_mul hMpos]
    calc X < P.p * 2 ^ 31 := hXlt
      _ ≤ ((d + 1) * M) * 2 ^ 31 := Nat.mul_le_mul_right _ hp2.le
      _ = _ := by ring
  have hble : x1.toNat / d ≤ 2 ^ 31 := by
    rw [← Nat.lt_succ_iff, Nat.div_lt_iff_lt_mul (by omega)]
    calc _ < (d + 1) * 2 ^ 31 := hx1lt
      _ ≤ Nat.succ (2 ^ 31) * d := by rw [Nat.succ_eq_add_one]; omega
  have hq := smallQuot_spec hV x1 (by omega) (by omega) (by rw [hd]; omega)
  rw [hd] at hq
  generalize hB : smallQuot P x1 = b at *
  rw [← hq] at hble
  obtain ⟨hub, hlb⟩ := small_bounds hp1 hp2 (by omega) hMpos hq hble h31 (p_pos hV) htop
  obtain ⟨sl, se⟩ := subMulLoop_spec b (x := x) (m := P.MODULUS) (by rw [hxN, hV.len]) 0 false
  rw [hxN, ← P.R_def, ← P.p_def] at se
  simp only [UInt64.toNat_zero, Bool.toNat_false, add_zero] at se
  generalize subMulLoop b x P.MODULUS 0 false = s at *
  obtain ⟨y, c1, c2⟩ := s
  simp only at sl se ⊢
  have hyN : y.length = P.N := sl.trans hxN
  have hy := lval_lt_R (P := P) hyN
  have hsb := subborrow_spec hi c1 c2
  have hc2 := Bool.toNat_le c2
  have hmodkey : ∀ z, z < P.p → (z : Int) % P.p = X % P.p → z = X % P.p := by
    intro z hz h
    have : ((z % P.p : Nat) : Int) = ((X % P.p : Nat) : Int) := by push_cast; exact h
    rw [Nat.mod_eq_of_lt hz] at this
    exact_mod_cast this
  by_cases hneg : X < b.toNat * P.p
  · -- negative
    have hcs : c1.toNat + c2.toNat = hi.toNat + 1 := by
      rcases Nat.lt_trichotomy (c1.toNat + c2.toNat) (hi.toNat + 1) with h | h | h
      · have : P.R * (c1.toNat + c2.toNat) ≤ P.R * hi.toNat := Nat.mul_le_mul_left _ (by omega)
        omega
      · exact h
      · have : P.R * (hi.toNat + 2) ≤ P.R * (c1.toNat + c2.toNat) := Nat.mul_le_mul_left _ h
        rw [mul_add] at this
        omega
    rw [hcs, mul_add, mul_one] at se
    replace se : lval y + b.toNat * P.p = X + P.R := by omega
    have hh : (subborrow hi c1 c2).1 = -1 := by
      apply UInt64.toNat_inj.1
      have := (subborrow hi c1 c2).1.toNat_lt
      show _ = 2 ^ 64 - 1
      have hbb := Bool.toNat_le (subborrow hi c1 c2).2
      omega
    rw [hh]
    obtain ⟨-, h2⟩ := smallFix_spec hV hyN
    obtain ⟨fl, f2, fe⟩ := h2 (by omega)
    generalize smallFix P (y, -1) = z at *
    obtain ⟨z, zh⟩ := z
    simp only at fl f2 fe
    subst f2
    rw [(smallFix_spec hV fl).1]
    have hz : lval z = X % P.p := by
      have hz1 : lval z + b.toNat * P.p = X + P.p := by omega
      have hz2 : lval z < P.p := by omega
      have : (lval z + b.toNat * P.p) % P.p = (X + P.p) % P.p := by rw [hz1]
      rw [Nat.add_mul_mod_self_right, Nat.add_mod_right, Nat.mod_eq_of_lt hz2] at this
      exact this
    refine ⟨⟨fl, ?_⟩, hz⟩
    show lval z < P.p
    omega
  · have hcs : c1.toNat + c2.toNat = hi.toNat := by
      rcases Nat.lt_trichotomy (c1.toNat + c2.toNat) hi.toNat with h | h | h
      · have : P.R * (c1.toNat + c2.toNat + 1) ≤ P.R * hi.toNat := Nat.mul_le_mul_left _ h
        rw [mul_add] at this
        omega
      · exact h
      · have : P.R * (hi.toNat + 1) ≤ P.R * (c1.toNat + c2.toNat) := Nat.mul_le_mul_left _ h
        rw [mul_add] at this
        omega
    rw [hcs] at se
    replace se : lval y + b.toNat * P.p = X := by omega
    have hh : (subborrow hi c1 c2).1 = 0 := by
      apply UInt64.toNat_inj.1
      show _ = 0
      have hbb := Bool.toNat_le (subborrow hi c1 c2).2
      have := (subborrow hi c1 c2).1.toNat_lt
      omega
    rw [hh]
    rw [(smallFix_spec hV hyN).1, (smallFix_spec hV hyN).1]
    have hz : lval y = X % P.p := by
      have hz2 : lval y < P.p := by omega
      have : (lval y + b.toNat * P.p) % P.p = X % P.p := by rw [se]
      rw [Nat.add_mul_mod_self_right, Nat.mod_eq_of_lt hz2] at this
      exact this
    refine ⟨⟨hyN, ?_⟩, hz⟩
    show lval y < P.p
    omega

/-! ### Fused products -/

theorem sopRound_spec (hV : P.Valid) {b1 b2 u : Limbs} (h1 : b1.length = P.N) (h2 : b2.length = P.N)
    (hu : u.length = P.N) (v1 : lval b1 ≤ P.p) (v2 : lval b2 ≤ P.p) (vu : lval u < 3 * P.p)
    (a : UInt64 × UInt64) :
    (sopRound P b1 b2 u a).length = P.N ∧ lval (sopRound P b1 b2 u a) < 3 * P.p ∧
    ∃ q, q < 2 ^ 64 ∧ 2 ^ 64 * lval (sopRound P b1 b2 u a)
      = lval u + a.1.toNat * lval b1 + a.2.toNat * lval b2 + q * P.p := by
  have hN := hV.N_two
  have hlen := hV.len
  have hroom := hV.room
  have hR : P.R = (2 ^ 64) ^ (P.N - 1) * 2 ^ 64 := by
    rw [P.R_def, ← Wsucc]; congr 1; omega
  obtain ⟨a1, a2⟩ := a
  have e1 := macLoop_spec a1 (m := b1) (t := u) (by omega) 0
  have l1 := macLoop_length a1 (m := b1) (t := u) (by omega) 0
  have e2 := macLoop_spec a2 (m := b2) (t := (macLoop a1 b1 u 0).1) (by omega) 0
  have l2 := macLoop_length a2 (m := b2) (t := (macLoop a1 b1 u 0).1) (by omega) 0
  unfold sopRound
  simp only
  generalize macLoop a1 b1 u 0 = r1 at *
  obtain ⟨w1, c1⟩ := r1
  simp only at *
  generalize macLoop a2 b2 w1 0 = r2 at *
  obtain ⟨w2, c2⟩ := r2
  simp only at *
  rcases hm : P.MODULUS with _ | ⟨m0, ms⟩
  · rw [hm] at hlen; simp at hlen; omega
  rcases w2 with _ | ⟨u0, us⟩
  · simp at l2; omega
  rw [hm] at hlen
  simp only [List.length_cons] at hlen l2
  have h0 := p0i_clears hV hm u0
  have e3 := umullAdd_spec (u0 * P.P0I) m0 u0
  rw [h0] at e3
  have e4 := macLoop_spec (u0 * P.P0I) (m := ms) (t := us) (by omega) (umullAdd (u0 * P.P0I) m0 u0).2
  have l4 := macLoop_length (u0 * P.P0I) (m := ms) (t := us) (by omega) (umullAdd (u0 * P.P0I) m0 u0).2
  simp only
  generalize hq : u0 * P.P0I = q at *
  generalize umullAdd q m0 u0 = r3 at *
  generalize macLoop q ms us r3.2 = r4 at *
  obtain ⟨ds, cc⟩ := r4
  simp only at *
  rw [h1] at e1
  rw [h2] at e2
  rw [← P.R_def, hR] at e1 e2
  have hms : ms.length = P.N - 1 := by omega
  rw [hms] at e4
  have hp : P.p = m0.toNat + 2 ^ 64 * lval ms := by rw [P.p_def, hm, lval_cons]
  generalize hQ : ((2 : Nat) ^ 64) ^ (P.N - 1) = Q at *
  simp only [lval_cons, UInt64.toNat_zero, add_zero, zero_add] at e1 e2 e3 e4
  have hval : 2 ^ 64 * (lval ds + Q * (c1.toNat + c2.toNat + cc.toNat))
      = lval u + a1.toNat * lval b1 + a2.toNat * lval b2 + q.toNat * P.p := by
    rw [hp]
    linear_combination e1 + e2 + e3 + 2 ^ 64 * e4
  have hbound : lval ds + Q * (c1.toNat + c2.toNat + cc.toNat) < 3 * P.p := by
    have k1 : a1.toNat * lval b1 ≤ (2 ^ 64 - 1) * P.p :=
      Nat.mul_le_mul (by have := a1.toNat_lt; omega) v1
    have k2 : a2.toNat * lval b2 ≤ (2 ^ 64 - 1) * P.p :=
      Nat.mul_le_mul (by have := a2.toNat_lt; omega) v2
    have k3 : q.toNat * P.p ≤ (2 ^ 64 - 1) * P.p :=
      Nat.mul_le_mul_right _ (by have := q.toNat_lt; omega)
    omega
  have hsum : (0 + c1 + c2 + cc).toNat = c1.toNat + c2.toNat + cc.toNat := by
    have : c1.toNat + c2.toNat + cc.toNat < 2 ^ 64 := by
      have : Q * (c1.toNat + c2.toNat + cc.toNat) < Q * 2 ^ 64 := by omega
      exact Nat.lt_of_mul_lt_mul_left this
    rw [UInt64.zero_add, UInt64.toNat_add, UInt64.toNat_add]
    omega
  have hdl : ds.length = P.N - 1 := by omega
  have hfin : lval (ds ++ [0 + c1 + c2 + cc]) = lval ds + Q * (c1.toNat + c2.toNat + cc.toNat) := by
    rw [lval_append, hdl, hQ, lval_cons, lval_nil, hsum]; ring
  refine ⟨by simp [hdl]; omega, by rw [hfin]; exact hbound, q.toNat, q.toNat_lt, ?_⟩
  rw [hfin, hval]

theorem sopFold_spec (hV : P.Valid) {b1 b2 : Limbs} (h1 : b1.length = P.N) (h2 : b2.length = P.N)
    (v1 : lval b1 ≤ P.p) (v2 : lval b2 ≤ P.p) (a1 a2 : Limbs) (ha : a1.length = a2.length)
    (u : Limbs) (hu : u.length = P.N) (vu : lval u < 3 * P.p) :
    ((List.zip a1 a2).foldl (sopRound P b1 b2) u).length = P.N ∧
    ∃ q, q < (2 ^ 64) ^ a1.length ∧
      (2 ^ 64) ^ a1.length * lval ((List.zip a1 a2).foldl (sopRound P b1 b2) u)
      = lval u + lval a1 * lval b1 + lval a2 * lval b2 + q * P.p := by
  induction a1 generalizing a2 u with
  | nil =>
    have : a2 = [] := by simpa using ha.symm
    subst this
    exact ⟨hu, 0, by simp, by simp⟩
  | cons x xs ih =>
    rcases a2 with _ | ⟨y, ys⟩
    · simp at ha
    obtain ⟨l, b, q, hq, e⟩ := sopRound_spec hV h1 h2 hu v1 v2 vu (x, y)
    obtain ⟨l2, q2, hq2, e2⟩ := ih ys (by simpa using ha) _ l b
    simp only [List.zip_cons_cons, List.foldl_cons, List.length_cons, Wsucc, lval_cons]
    refine ⟨l2, q + 2 ^ 64 * q2, ?_, ?_⟩
    · have : 2 ^ 64 * (q2 + 1) ≤ 2 ^ 64 * (2 ^ 64) ^ xs.length := Nat.mul_le_mul_left _ hq2
      rw [mul_comm ((2 ^ 64) ^ xs.length)]; omega
    · simp only at e
      linear_combination e + 2 ^ 64 * e2

theorem sopFinal_eq (P : FpParams) (u : Limbs) : sopFinal P u = finalSub P u false := by
  unfold sopFinal finalSub
  simp only
  congr 1

/-- Fused products, common core: `R * out ≡ a1 b1 + a2 b2`. -/
theorem sop_core (hV : P.Valid) {a1 b1 a2 b2 : Limbs} (ha1 : Reduced P a1) (ha2 : Reduced P a2)
    (h1 : b1.length = P.N) (h2 : b2.length = P.N) (v1 : lval b1 ≤ P.p) (v2 : lval b2 ≤ P.p) :
    Reduced P (sopFinal P ((List.zip a1 a2).foldl (sopRound P b1 b2) (fpZero P))) ∧
    P.R * lval (sopFinal P ((List.zip a1 a2).foldl (sopRound P b1 b2) (fpZero P)))
      ≡ lval a1 * lval b1 + lval a2 * lval b2 [MOD P.p] := by
  have hp := p_pos hV
  have hz : (fpZero P).length = P.N := by simp [fpZero]
  have hzv : lval (fpZero P) = 0 := lval_replicate_zero _
  obtain ⟨l, q, hq, e⟩ := sopFold_spec hV h1 h2 v1 v2 a1 a2 (by rw [ha1.1, ha2.1]) (fpZero P) hz
    (by rw [hzv]; omega)
  rw [ha1.1, ← P.R_def] at hq e
  rw [hzv, zero_add] at e
  generalize (List.zip a1 a2).foldl (sopRound P b1 b2) (fpZero P) = u at *
  have hroom := hV.room
  have hlt : lval u < 2 * P.p := by
    have k1 : lval a1 * lval b1 ≤ P.p * P.p := Nat.mul_le_mul ha1.2.le v1
    have k2 : lval a2 * lval b2 ≤ P.p * P.p := Nat.mul_le_mul ha2.2.le v2
    have k3 : q * P.p + P.p ≤ P.R * P.p := by
      have : (q + 1) * P.p ≤ P.R * P.p := Nat.mul_le_mul_right _ hq
      linarith
    have k4 : 3 * P.p * P.p ≤ P.R * P.p := Nat.mul_le_mul_right _ hroom
    have : P.R * lval u < P.R * (2 * P.p) := by rw [e]; nlinarith
    exact Nat.lt_of_mul_lt_mul_left this
  have h3 := finalSub_spec hV l false (by simpa using hlt)
  rw [sopFinal_eq]
  simp only [Bool.toNat_false, mul_zero, add_zero] at h3
  refine ⟨⟨h3.1, by rw [h3.2]; split_ifs <;> omega⟩, ?_⟩
  have hmod : lval (finalSub P u false) ≡ lval u [MOD P.p] := by
    rw [h3.2]; split_ifs with hc
    · rfl
    · unfold Nat.ModEq; rw [← Nat.mod_eq_sub_mod (by omega)]
  calc _ ≡ P.R * lval u [MOD P.p] := hmod.mul_left _
    _ = lval a1 * lval b1 + lval a2 * lval b2 + q * P.p := e
    _ ≡ _ [MOD P.p] := by unfold Nat.ModEq; simp

end Festa
