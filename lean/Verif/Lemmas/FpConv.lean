import Verif.Lemmas.FpRep
/-! Signed conversions, small multiples, fused products, bytes, in terms of residues. -/
namespace Festa

variable {P : FpParams}

/-! ### Signed integers -/

theorem int32_sign (x : Int32) :
    UInt32.ofBitVec (x.toBitVec.sshiftRight 31) = ctlOf (decide (x.toInt < 0)) := by
  apply UInt32.toBitVec_inj.1
  show x.toBitVec.sshiftRight 31 = _
  have hx : x.toInt = x.toBitVec.toInt := rfl
  have hm : x.toBitVec.msb = decide (x.toInt < 0) := by
    rw [hx, BitVec.msb_eq_toInt]
  rw [← hm]
  apply BitVec.eq_of_getLsbD_eq
  intro i hi
  rw [BitVec.getLsbD_sshiftRight]
  cases hb : x.toBitVec.msb
  · have : ¬ (i ≥ 32) := by omega
    by_cases h31 : 31 + i < 32
    · have : i = 0 := by omega
      subst this
      simp [ctlOf]
      have := BitVec.msb_eq_getLsbD_last x.toBitVec
      rw [hb] at this
      simpa using this.symm
    · simp [h31, ctlOf]
  · by_cases h31 : 31 + i < 32
    · have : i = 0 := by omega
      subst this
      simp [ctlOf]
      have := BitVec.msb_eq_getLsbD_last x.toBitVec
      rw [hb] at this
      simpa using this.symm
    · have e : (ctlOf true).toBitVec = BitVec.allOnes 32 := by decide
      rw [e, BitVec.getLsbD_allOnes]
      simp [h31, hi]

theorem int64_sign (x : Int64) :
    UInt64.ofBitVec (x.toBitVec.sshiftRight 63) = if x.toInt < 0 then -1 else 0 := by
  have h := sgnw_toNat (x.toUInt64)
  have e : sgnw x.toUInt64 = UInt64.ofBitVec (x.toBitVec.sshiftRight 63) := rfl
  rw [← e]
  have hx : x.toInt = x.toBitVec.toInt := rfl
  have hu : x.toUInt64.toNat = x.toBitVec.toNat := rfl
  have hlt := x.toUInt64.toNat_lt
  have hcond : x.toInt < 0 ↔ ¬ x.toUInt64.toNat < 2 ^ 63 := by
    rw [hx, hu, BitVec.toInt_eq_toNat_cond]
    have := x.toBitVec.isLt
    split_ifs <;> omega
  by_cases hn : x.toInt < 0
  · rw [if_pos hn]; exact sgnw_neg (by have := hcond.1 hn; omega)
  · rw [if_neg hn]; exact sgnw_zero (by by_contra hc; exact hn (hcond.2 hc))

theorem int32_abs (x : Int32) :
    ((x.toUInt32 ^^^ ctlOf (decide (x.toInt < 0))) - ctlOf (decide (x.toInt < 0))).toNat
      = x.toInt.natAbs := by
  have hx : x.toInt = x.toBitVec.toInt := rfl
  have hu : x.toUInt32.toNat = x.toBitVec.toNat := rfl
  have hlt := x.toUInt32.toNat_lt
  have hc : x.toInt = if x.toUInt32.toNat < 2 ^ 31 then (x.toUInt32.toNat : Int)
      else (x.toUInt32.toNat : Int) - 2 ^ 32 := by
    rw [hx, hu, BitVec.toInt_eq_toNat_cond]
    have := x.toBitVec.isLt
    split_ifs <;> omega
  by_cases hn : x.toInt < 0
  · have e : ctlOf (decide (x.toInt < 0)) = -1 := by simp [hn]; rfl
    rw [e]
    have hnot : x.toUInt32 ^^^ (-1 : UInt32) = ~~~ x.toUInt32 := by
      apply UInt32.toBitVec_inj.1
      simp
    rw [hnot, UInt32.toNat_sub, UInt32.toNat_not]
    have h1 : (-1 : UInt32).toNat = 2 ^ 32 - 1 := rfl
    rw [h1, UInt32.size]
    split_ifs at hc <;> omega
  · have e : ctlOf (decide (x.toInt < 0)) = 0 := by simp [hn]; rfl
    rw [e]
    simp only [UInt32.xor_zero, UInt32.sub_zero]
    split_ifs at hc <;> omega

theorem int64_abs (x : Int64) (s : UInt64) (hs : s = if x.toInt < 0 then -1 else 0) :
    ((x.toUInt64 ^^^ s) - s).toNat = x.toInt.natAbs := by
  have hx : x.toInt = x.toBitVec.toInt := rfl
  have hu : x.toUInt64.toNat = x.toBitVec.toNat := rfl
  have hlt := x.toUInt64.toNat_lt
  have hc : x.toInt = if x.toUInt64.toNat < 2 ^ 63 then (x.toUInt64.toNat : Int)
      else (x.toUInt64.toNat : Int) - 2 ^ 64 := by
    rw [hx, hu, BitVec.toInt_eq_toNat_cond]
    have := x.toBitVec.isLt
    split_ifs <;> omega
  by_cases hn : x.toInt < 0
  · rw [hs, if_pos hn]
    have hnot : x.toUInt64 ^^^ (-1 : UInt64) = ~~~ x.toUInt64 := by
      apply UInt64.toBitVec_inj.1
      simp
    rw [hnot, UInt64.toNat_sub, UInt64.toNat_not]
    have h1 : (-1 : UInt64).toNat = 2 ^ 64 - 1 := rfl
    rw [h1, UInt64.size]
    split_ifs at hc <;> omega
  · rw [hs, if_neg hn]
    simp only [UInt64.xor_zero, UInt64.sub_zero]
    split_ifs at hc <;> omega

theorem cast_sign {R : Type*} [CommRing R] (z : Int) :
    (if decide (z < 0) = true then -((z.natAbs : Nat) : R) else ((z.natAbs : Nat) : R)) = (z : R) := by
  by_cases h : z < 0
  · simp only [h, decide_true, if_true]
    have : z = -(z.natAbs : Int) := by omega
    conv_rhs => rw [this]
    push_cast; simp
  · simp only [h, decide_false]
    have : z = (z.natAbs : Int) := by omega
    conv_rhs => rw [this]
    simp

theorem rep_from_i32 (hV : P.Valid) (x : Int32) : Rep P (fpFromI32 P x) (x.toInt : ZMod P.p) := by
  unfold fpFromI32
  simp only
  rw [int32_sign]
  have h := rep_condneg hV (rep_from_u64 hV
    ((x.toUInt32 ^^^ ctlOf (decide (x.toInt < 0))) - ctlOf (decide (x.toInt < 0))).toUInt64)
    (decide (x.toInt < 0))
  rw [UInt32.toNat_toUInt64, int32_abs, cast_sign] at h
  exact h

theorem rep_from_i64 (hV : P.Valid) (x : Int64) : Rep P (fpFromI64 P x) (x.toInt : ZMod P.p) := by
  unfold fpFromI64
  simp only
  rw [int64_sign]
  have hs : (if x.toInt < 0 then (-1 : UInt64) else 0).toUInt32 = ctlOf (decide (x.toInt < 0)) := by
    by_cases hn : x.toInt < 0 <;> simp [hn] <;> rfl
  rw [hs]
  have h := rep_condneg hV (rep_from_u64 hV
    ((x.toUInt64 ^^^ (if x.toInt < 0 then (-1 : UInt64) else 0)) -
      (if x.toInt < 0 then (-1 : UInt64) else 0))) (decide (x.toInt < 0))
  rw [int64_abs x _ rfl, cast_sign] at h
  exact h

theorem rep_mul_small (hV : P.Valid) {a : Limbs} {x : ZMod P.p} (ha : Rep P a x) (k : Int32) :
    Rep P (fpMulSmall P a k) (x * (k.toInt : ZMod P.p)) := by
  unfold fpMulSmall
  simp only
  rw [int32_sign]
  generalize hak : ((k.toUInt32 ^^^ ctlOf (decide (k.toInt < 0))) -
    ctlOf (decide (k.toInt < 0))).toUInt64 = ak
  have hakn : ak.toNat = k.toInt.natAbs := by
    rw [← hak, UInt32.toNat_toUInt64, int32_abs]
  have hle : ak.toNat ≤ 2 ^ 31 := by
    rw [hakn]
    have h1 := k.toInt_lt
    have h2 := k.le_toInt
    omega
  obtain ⟨h1, h2⟩ := mulSmall_core hV ha.1 ak hle (mulWordLoop ak a 0).1 (mulWordLoop ak a 0).2 rfl
  have hr : Rep P _ (x * ((k.toInt.natAbs : Nat) : ZMod P.p)) := ⟨h1, by
    rw [h2, cast_mod]; push_cast; rw [ha.2, hakn]; ring⟩
  have h := rep_condneg hV hr (decide (k.toInt < 0))
  have e : (if decide (k.toInt < 0) = true then -(x * ((k.toInt.natAbs : Nat) : ZMod P.p))
      else x * ((k.toInt.natAbs : Nat) : ZMod P.p)) = x * (k.toInt : ZMod P.p) := by
    rw [← cast_sign k.toInt]
    split_ifs <;> ring
  rw [e] at h
  exact h

theorem rep_sum_of_products (hV : P.Valid) {a1 b1 a2 b2 : Limbs} {x1 y1 x2 y2 : ZMod P.p}
    (h1 : Rep P a1 x1) (k1 : Rep P b1 y1) (h2 : Rep P a2 x2) (k2 : Rep P b2 y2) :
    Rep P (fpSumOfProducts P a1 b1 a2 b2) (x1 * y1 + x2 * y2) := by
  obtain ⟨r, e⟩ := sop_core hV h1.1 h2.1 k1.1.1 k2.1.1 k1.1.2.le k2.1.2.le
  apply rep_of_R_mul hV r
  have := cast_eq_of_modEq e
  push_cast at this
  rw [this, h1.2, k1.2, h2.2, k2.2]; ring

theorem rep_diff_of_products (hV : P.Valid) {a1 b1 a2 b2 : Limbs} {x1 y1 x2 y2 : ZMod P.p}
    (h1 : Rep P a1 x1) (k1 : Rep P b1 y1) (h2 : Rep P a2 x2) (k2 : Rep P b2 y2) :
    Rep P (fpDiffOfProducts P a1 b1 a2 b2) (x1 * y1 - x2 * y2) := by
  have hl : P.MODULUS.length = b2.length := by rw [hV.len, k2.1.1]
  have hs := subLoop_spec hl false
  have hbb := subLoop_borrow hl
  have hll := subLoop_length hl false
  have hlt := k2.1.2
  rw [P.p_def] at hlt
  rw [hbb, decide_eq_false (by omega)] at hs
  simp only [Bool.toNat_false, mul_zero, add_zero] at hs
  rw [← P.p_def] at hs
  have hb2 : lval (subLoop P.MODULUS b2 false).1 = P.p - lval b2 := by omega
  obtain ⟨r, e⟩ := sop_core hV h1.1 h2.1 k1.1.1 (hll.trans hV.len) k1.1.2.le (by omega)
  apply rep_of_R_mul hV r
  have := cast_eq_of_modEq e
  push_cast at this
  rw [this, hb2, Nat.cast_sub k2.1.2.le, cast_p, h1.2, k1.2, h2.2, k2.2]; ring

/-! ### Bytes -/

theorem bval_lt (b : List UInt8) : bval b < 256 ^ b.length := by
  induction b with
  | nil => simp [bval]
  | cons x xs ih =>
    have := x.toNat_lt
    simp only [bval, List.length_cons, pow_succ]
    have : bval xs + 1 ≤ 256 ^ xs.length := ih
    omega

theorem bval_append (x y : List UInt8) : bval (x ++ y) = bval x + 256 ^ x.length * bval y := by
  induction x with
  | nil => simp [bval]
  | cons a as ih =>
    simp only [List.cons_append, bval, ih, List.length_cons, pow_succ]
    ring

theorem bval_inj {x y : List UInt8} (hl : x.length = y.length) (h : bval x = bval y) : x = y := by
  induction x generalizing y with
  | nil => simp at hl; exact (List.length_eq_zero_iff.1 hl.symm).symm
  | cons a as ih =>
    cases y with
    | nil => simp at hl
    | cons b bs =>
      simp only [bval] at h
      have ha := a.toNat_lt
      have hb := b.toNat_lt
      have h1 : a.toNat = b.toNat := by omega
      have h2 : bval as = bval bs := by omega
      rw [ih (by simpa using hl) h2, UInt8.toNat_inj.1 h1]

theorem bval_take_drop (n : Nat) (x : List UInt8) (h : n ≤ x.length) :
    bval (x.take n) + 256 ^ n * bval (x.drop n) = bval x := by
  conv_rhs => rw [← List.take_append_drop n x, bval_append]
  rw [List.length_take, min_eq_left h]

theorem leBytes_spec (n : Nat) (x : UInt64) :
    (leBytes n x).length = n ∧ bval (leBytes n x) = x.toNat % 256 ^ n := by
  induction n generalizing x with
  | zero => simp [leBytes, bval, Nat.mod_one]
  | succ n ih =>
    obtain ⟨l, e⟩ := ih (x >>> 8)
    simp only [leBytes, List.length_cons, bval, l, e]
    refine ⟨trivial, ?_⟩
    rw [UInt64.toNat_shiftRight, show (8 : UInt64).toNat % 64 = 8 from rfl,
      Nat.shiftRight_eq_div_pow, pow_succ 256, mul_comm (256 ^ n), Nat.mod_mul]
    simp [UInt64.toNat_toUInt8]

theorem leBytes8 (x : UInt64) : bval (leBytes 8 x) = x.toNat := by
  rw [(leBytes_spec 8 x).2]
  apply Nat.mod_eq_of_lt
  have := x.toNat_lt
  norm_num at this ⊢
  exact this

theorem flatMap_leBytes (x : Limbs) :
    (x.flatMap (leBytes 8)).length = 8 * x.length ∧ bval (x.flatMap (leBytes 8)) = lval x := by
  induction x with
  | nil => simp [bval]
  | cons a as ih =>
    rw [List.flatMap_cons]
    refine ⟨by rw [List.length_append, ih.1, (leBytes_spec 8 a).1, List.length_cons]; ring, ?_⟩
    rw [bval_append, ih.2, (leBytes_spec 8 a).1, leBytes8, lval_cons]
    norm_num

theorem fromLe_spec (bs : List UInt8) (j : Nat) (h : j + bs.length ≤ 8) :
    (fromLe j bs).toNat = 256 ^ j * bval bs := by
  induction bs generalizing j with
  | nil => simp [fromLe, bval]
  | cons b bs ih =>
    simp only [List.length_cons] at h
    have e := ih (j + 1) (by omega)
    have hb := b.toNat_lt
    have hbv := bval_lt bs
    simp only [fromLe, bval]
    rw [UInt64.toNat_or, e, UInt64.toNat_shiftLeft, UInt64.toNat_ofNat']
    have s1 : 8 * j % 2 ^ 64 % 64 = 8 * j := by
      rw [Nat.mod_eq_of_lt (a := 8 * j) (b := 2 ^ 64) (by omega), Nat.mod_eq_of_lt (by omega)]
    have h256 : (256 : Nat) ^ j = 2 ^ (8 * j) := by rw [pow_mul]; norm_num
    rw [s1, UInt8.toNat_toUInt64, Nat.shiftLeft_eq]
    have hsm : b.toNat * 2 ^ (8 * j) < 2 ^ (8 * j + 8) := by
      rw [pow_add]; rw [mul_comm]
      exact Nat.mul_lt_mul_of_pos_left (by norm_num at hb ⊢; exact hb) (by positivity)
    rw [Nat.mod_eq_of_lt (lt_of_lt_of_le hsm (Nat.pow_le_pow_right (by norm_num) (by omega)))]
    have e2 : 256 ^ (j + 1) * bval bs = bval bs <<< (8 * j + 8) := by
      rw [Nat.shiftLeft_eq, pow_succ, h256, pow_add]; ring
    rw [e2, Nat.or_comm, ← Nat.shiftLeft_add_eq_or_of_lt hsm, ← e2, h256, pow_succ, h256]
    ring

theorem readLimbs_spec (n : Nat) (buf : List UInt8) (h : 8 * n ≤ buf.length) :
    (readLimbs n buf).length = n ∧ lval (readLimbs n buf) = bval (buf.take (8 * n)) := by
  induction n generalizing buf with
  | zero => simp [readLimbs, bval]
  | succ n ih =>
    obtain ⟨l, e⟩ := ih (buf.drop 8) (by rw [List.length_drop]; omega)
    simp only [readLimbs, List.length_cons, lval_cons, l, e]
    refine ⟨trivial, ?_⟩
    rw [fromLe_spec _ 0 (by rw [List.length_take]; omega)]
    have : buf.take (8 * (n + 1)) = buf.take 8 ++ (buf.drop 8).take (8 * n) := by
      rw [show 8 * (n + 1) = 8 + 8 * n by ring, List.take_add]
    rw [this, bval_append, List.length_take, min_eq_left (by omega)]
    norm_num

theorem encLen_bounds (hV : P.Valid) :
    8 * (P.N - 1) < P.encLen ∧ P.encLen ≤ 8 * P.N ∧ P.p ≤ 256 ^ P.encLen := by
  have h := hV.bitlen_N
  have hN := hV.N_two
  have hb := hV.bitlen.2
  have e : P.encLen = (P.BITLEN + 7) / 8 := by
    unfold FpParams.encLen; rw [Nat.shiftRight_eq_div_pow]
  refine ⟨by omega, by omega, ?_⟩
  rw [show (256 : Nat) = 2 ^ 8 by norm_num, ← pow_mul]
  exact hb.le.trans (Nat.pow_le_pow_right (by norm_num) (by omega))

theorem lval_last {x : Limbs} {n : Nat} (hx : x.length = n) (hn : 1 ≤ n) :
    lval x = lval (x.take (n - 1)) + (2 ^ 64) ^ (n - 1) * (x.getD (n - 1) 0).toNat := by
  have e := lval_take_drop (n - 1) x (by omega)
  rw [← e]
  congr 2
  have hd : x.drop (n - 1) = [x.getD (n - 1) 0] := by
    rw [List.drop_eq_getElem_cons (by omega), List.drop_eq_nil_of_le (by omega),
      getD_getElem _ (by omega)]
  rw [hd]; simp

theorem pow256_64 (n : Nat) : (256 : Nat) ^ (8 * n) = (2 ^ 64) ^ n := by
  rw [pow_mul]; norm_num

/-- `encode`: little-endian bytes of the canonical integer. -/
theorem encode_spec (hV : P.Valid) {a : Limbs} {x : ZMod P.p} (ha : Rep P a x) :
    (fpEncode P a).length = P.encLen ∧ bval (fpEncode P a) = x.val := by
  obtain ⟨h1, h2, h3⟩ := montyRed_rep hV ha
  obtain ⟨b1, b2, b3⟩ := encLen_bounds hV
  have hN := hV.N_two
  have hl : ((montyRed P a).take (P.N - 1)).length = P.N - 1 := by
    rw [List.length_take, h1.1]; omega
  obtain ⟨f1, f2⟩ := flatMap_leBytes ((montyRed P a).take (P.N - 1))
  obtain ⟨g1, g2⟩ := leBytes_spec (P.encLen - (P.N - 1) * 8) ((montyRed P a).getD (P.N - 1) 0)
  have hll := lval_last h1.1 (by omega)
  unfold fpEncode
  simp only
  refine ⟨by rw [List.length_append, f1, g1, hl]; omega, ?_⟩
  rw [bval_append, f1, hl, f2, g2, pow256_64, Nat.mod_eq_of_lt, ← hll, h3]
  have hlt : lval (montyRed P a) < 256 ^ P.encLen := lt_of_lt_of_le h1.2 b3
  have h5 : (2 ^ 64) ^ (P.N - 1) * ((montyRed P a).getD (P.N - 1) 0).toNat
      < (2 ^ 64) ^ (P.N - 1) * 256 ^ (P.encLen - (P.N - 1) * 8) := by
    rw [← pow256_64, ← pow_add]
    have : 8 * (P.N - 1) + (P.encLen - (P.N - 1) * 8) = P.encLen := by omega
    rw [this, pow256_64]; omega
  exact Nat.lt_of_mul_lt_mul_left h5

theorem decodeNocheck_spec (hV : P.Valid) {buf : List UInt8} (hb : buf.length = P.encLen) :
    (fpDecodeNocheck P buf).length = P.N ∧ lval (fpDecodeNocheck P buf) = bval buf := by
  obtain ⟨b1, b2, b3⟩ := encLen_bounds hV
  have hN := hV.N_two
  obtain ⟨l, e⟩ := readLimbs_spec (P.N - 1) buf (by omega)
  unfold fpDecodeNocheck
  refine ⟨by simp [l]; omega, ?_⟩
  have ht : (buf.drop ((P.N - 1) * 8)).take (P.encLen - (P.N - 1) * 8) = buf.drop ((P.N - 1) * 8) := by
    apply List.take_of_length_le; rw [List.length_drop]; omega
  rw [ht, lval_append, l, e, lval_cons, lval_nil, fromLe_spec _ 0 (by rw [List.length_drop]; omega)]
  have := bval_take_drop (8 * (P.N - 1)) buf (by omega)
  rw [pow256_64] at this
  rw [mul_comm (P.N - 1) 8]
  simpa using this

end Festa
