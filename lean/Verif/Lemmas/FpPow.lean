import Verif.Lemmas.FpConv
import Mathlib.NumberTheory.LegendreSymbol.Basic
/-! Decoding with reduction, exponentiation and roots. -/
namespace Festa

variable {P : FpParams}

theorem decode_spec_aux (hV : P.Valid) {buf : List UInt8} (hb : buf.length = P.encLen) :
    (bval buf < P.p → ∃ r, fpDecode P buf = (r, 0xFFFFFFFF) ∧ Rep P r (bval buf : ZMod P.p)) ∧
    (P.p ≤ bval buf → ∃ r, fpDecode P buf = (r, 0) ∧ Rep P r 0) := by
  obtain ⟨l, e⟩ := decodeNocheck_spec hV hb
  have hbb := subLoop_borrow (x := fpDecodeNocheck P buf) (y := P.MODULUS) (by rw [l, hV.len])
  rw [e, ← P.p_def] at hbb
  unfold fpDecode
  rw [if_neg (by simp [hb])]
  simp only
  rw [hbb]
  constructor
  · intro h
    have h1 : -(decide (bval buf < P.p)).toUInt64 = (-1 : UInt64) := by rw [decide_eq_true h]; rfl
    rw [h1, map_and_ones]
    refine ⟨_, rfl, ?_⟩
    have := rep_toMonty hV (a := fpDecodeNocheck P buf) ⟨l, by rw [e]; exact h⟩
    rwa [e] at this
  · intro h
    have h1 : -(decide (bval buf < P.p)).toUInt64 = (0 : UInt64) := by
      rw [decide_eq_false (Nat.not_lt.2 h)]; rfl
    rw [h1, map_and_zero, l]
    refine ⟨_, rfl, ?_⟩
    have := rep_mul hV (rep_zero hV) (b := P.R2_VAL) (y := P.R) (by
      refine ⟨reduced_R2 hV, ?_⟩
      rw [hV.r2_val, cast_mod]; push_cast; rfl)
    rw [zero_mul] at this
    exact this

theorem clen_bounds (hV : P.Valid) : 0 < P.clen ∧ P.clen < P.encLen ∧ 256 ^ P.clen ≤ P.p := by
  have h := hV.bitlen_N
  have hN := hV.N_two
  have hb := hV.bitlen.1
  obtain ⟨b1, b2, b3⟩ := encLen_bounds hV
  unfold FpParams.clen
  refine ⟨by omega, by omega, ?_⟩
  rw [show (256 : Nat) = 2 ^ 8 by norm_num, ← pow_mul]
  exact (Nat.pow_le_pow_right (by norm_num) (by omega)).trans hb

theorem bval_replicate_zero (n : Nat) : bval (List.replicate n 0) = 0 := by
  induction n with
  | zero => rfl
  | succ n ih => simp [List.replicate_succ, bval, ih]

theorem cast_tdec (hV : P.Valid) :
    (lval P.TDEC_VAL : ZMod P.p) = (256 ^ P.clen : Nat) * (P.R : ZMod P.p) := by
  have hN := hV.N_two
  rw [hV.tdec_val, cast_mod, FpParams.clen, pow256_64, P.R_def, ← Nat.cast_mul, ← pow_add]
  congr 2; omega

theorem decodeReduceLoop_spec (hV : P.Valid) (buf : List UInt8) (k : Nat) (tmp : List UInt8)
    (x : Limbs) (hk : k * P.clen ≤ buf.length) (ht : tmp.length = P.encLen)
    (hz : bval (tmp.drop P.clen) = 0) (hx : Reduced P x)
    (hv : (lval x : ZMod P.p) = (bval (buf.drop (k * P.clen)) : Nat)) :
    Reduced P (decodeReduceLoop P buf k tmp x) ∧
      (lval (decodeReduceLoop P buf k tmp x) : ZMod P.p) = (bval buf : Nat) := by
  obtain ⟨c0, c1, c2⟩ := clen_bounds hV
  induction k generalizing tmp x with
  | zero => exact ⟨hx, by simpa [decodeReduceLoop] using hv⟩
  | succ k ih =>
    simp only [decodeReduceLoop]
    have hk' : k * P.clen + P.clen ≤ buf.length := by rw [add_mul, one_mul] at hk; exact hk
    generalize hchunk : (buf.drop (k * P.clen)).take P.clen = ch
    have hcl : ch.length = P.clen := by
      rw [← hchunk, List.length_take, List.length_drop]; omega
    have htl : (ch ++ tmp.drop P.clen).length = P.encLen := by
      rw [List.length_append, hcl, List.length_drop]; omega
    have hbv : bval (ch ++ tmp.drop P.clen) = bval ch := by rw [bval_append, hz]; simp
    obtain ⟨dl, de⟩ := decodeNocheck_spec hV htl
    have hd : Reduced P (fpDecodeNocheck P (ch ++ tmp.drop P.clen)) := by
      refine ⟨dl, ?_⟩
      rw [de, hbv]
      have := bval_lt ch
      rw [hcl] at this
      omega
    obtain ⟨m1, m2⟩ := fpMul_lval hV hx hV.tdec_len
    obtain ⟨a1, a2⟩ := fpAdd_lval hV m1 hd
    apply ih
    · omega
    · exact htl
    · rw [List.drop_left' hcl]; exact hz
    · exact a1
    · have hm : (lval (fpMul P x P.TDEC_VAL) : ZMod P.p) = (lval x : ZMod P.p) * (256 ^ P.clen : Nat) := by
        apply (isUnit_R hV).mul_left_cancel
        have := cast_eq_of_modEq m2
        push_cast at this
        rw [this, cast_tdec hV]; push_cast; ring
      rw [a2, cast_mod, Nat.cast_add, hm, de, hbv, hv]
      have hsplit := bval_take_drop P.clen (buf.drop (k * P.clen)) (by rw [List.length_drop]; omega)
      rw [hchunk, List.drop_drop] at hsplit
      rw [← hsplit, show (k + 1) * P.clen = k * P.clen + P.clen by ring]
      push_cast; ring

theorem decodeReduce_spec (hV : P.Valid) (buf : List UInt8) :
    Rep P (fpDecodeReduce P buf) (bval buf : Nat) := by
  obtain ⟨c0, c1, c2⟩ := clen_bounds hV
  unfold fpDecodeReduce
  by_cases h0 : buf.length = 0
  · rw [if_pos h0]
    have : buf = [] := by simpa using h0
    rw [this]; simpa [bval] using rep_zero hV
  · rw [if_neg h0]
    simp only
    generalize hnn : (if buf.length % P.clen = 0 then P.clen else buf.length % P.clen) = nn
    have hmod := Nat.mod_lt buf.length c0
    have hdm := Nat.div_add_mod buf.length P.clen
    have hnn1 : 0 < nn ∧ nn ≤ P.clen ∧ nn ≤ buf.length ∧ (buf.length - nn) % P.clen = 0 := by
      by_cases hz : buf.length % P.clen = 0
      · rw [if_pos hz] at hnn
        subst hnn
        have hle : P.clen ≤ buf.length := by
          by_contra hc
          rw [Nat.mod_eq_of_lt (by omega)] at hz; omega
        refine ⟨c0, le_rfl, hle, ?_⟩
        rw [← Nat.mod_eq_sub_mod hle]; exact hz
      · rw [if_neg hz] at hnn
        subst hnn
        refine ⟨by omega, hmod.le, Nat.mod_le _ _, ?_⟩
        have : buf.length - buf.length % P.clen = P.clen * (buf.length / P.clen) := by omega
        rw [this]; exact Nat.mul_mod_right _ _
    obtain ⟨n0, n1, n2, n3⟩ := hnn1
    have hk : (buf.length - nn) / P.clen * P.clen = buf.length - nn :=
      Nat.div_mul_cancel (Nat.dvd_of_mod_eq_zero n3)
    have hdl : (buf.drop (buf.length - nn)).length = nn := by rw [List.length_drop]; omega
    have htl : (buf.drop (buf.length - nn) ++ List.replicate (P.encLen - nn) 0).length = P.encLen := by
      rw [List.length_append, hdl, List.length_replicate]; omega
    have htz : bval ((buf.drop (buf.length - nn) ++ List.replicate (P.encLen - nn) 0).drop P.clen) = 0 := by
      rw [List.drop_append, List.drop_eq_nil_of_le (by rw [hdl]; exact n1)]
      simp [bval_replicate_zero]
    have hbv : bval (buf.drop (buf.length - nn) ++ List.replicate (P.encLen - nn) 0)
        = bval (buf.drop (buf.length - nn)) := by rw [bval_append, bval_replicate_zero]; simp
    obtain ⟨dl, de⟩ := decodeNocheck_spec hV htl
    have hlt := bval_lt (buf.drop (buf.length - nn))
    rw [hdl] at hlt
    have hlt2 : (256 : Nat) ^ nn ≤ 256 ^ P.clen := Nat.pow_le_pow_right (by norm_num) n1
    obtain ⟨r1, r2⟩ := decodeReduceLoop_spec hV buf ((buf.length - nn) / P.clen) _
      (fpDecodeNocheck P (buf.drop (buf.length - nn) ++ List.replicate (P.encLen - nn) 0))
      (by rw [hk]; omega) htl htz ⟨dl, by rw [de, hbv]; omega⟩ (by rw [de, hbv, hk])
    have := rep_toMonty hV r1
    rw [r2] at this
    exact this

/-! ### Exponentiation -/

theorem bval_bit (e : List UInt8) (i : Nat) (b : UInt8) (h : e[i / 8]? = some b) :
    b.toNat / 2 ^ (i % 8) % 2 = bval e / 2 ^ i % 2 := by
  induction e generalizing i with
  | nil => simp at h
  | cons x xs ih =>
    have hx := x.toNat_lt
    simp only [bval]
    by_cases hi : i < 8
    · have : i / 8 = 0 := Nat.div_eq_of_lt hi
      rw [this] at h
      simp at h
      subst h
      rw [Nat.mod_eq_of_lt hi]
      have h2 : 256 * bval xs = 2 ^ i * (2 * (2 ^ (7 - i) * bval xs)) := by
        rw [show (256 : Nat) = 2 ^ i * (2 * 2 ^ (7 - i)) by
          rw [← pow_succ', ← pow_add]; rw [show i + (7 - i + 1) = 8 by omega]; norm_num]
        ring
      rw [h2, Nat.add_mul_div_left _ _ (by positivity)]
      omega
    · have e1 : i / 8 = (i - 8) / 8 + 1 := by omega
      rw [e1] at h
      simp only [List.getElem?_cons_succ] at h
      have := ih (i - 8) h
      rw [show (i - 8) % 8 = i % 8 by omega] at this
      rw [this]
      have h2 : (2 : Nat) ^ i = 256 * 2 ^ (i - 8) := by
        rw [show (256 : Nat) = 2 ^ 8 by norm_num, ← pow_add]; congr 1; omega
      rw [h2, ← Nat.div_div_eq_div_mul]
      congr 2
      omega

theorem powCtl (b : UInt8) (i : Nat) :
    -((b >>> UInt8.ofNat (i &&& 7)).toUInt32 &&& 1)
      = ctlOf (decide (b.toNat / 2 ^ (i % 8) % 2 = 1)) := by
  have h7 : i &&& 7 = i % 8 := Nat.and_two_pow_sub_one_eq_mod i 3
  have hv : ((b >>> UInt8.ofNat (i &&& 7)).toUInt32 &&& 1).toNat = b.toNat / 2 ^ (i % 8) % 2 := by
    rw [UInt32.toNat_and, UInt8.toNat_toUInt32, UInt8.toNat_shiftRight, h7]
    rw [show (1 : UInt32).toNat = 1 from rfl, Nat.and_one_is_mod, Nat.shiftRight_eq_div_pow]
    have : (UInt8.ofNat (i % 8)).toNat % 8 = i % 8 := by
      rw [UInt8.toNat_ofNat']; omega
    rw [this]
  rcases Nat.mod_two_eq_zero_or_one (b.toNat / 2 ^ (i % 8)) with h | h
  · have : (b >>> UInt8.ofNat (i &&& 7)).toUInt32 &&& 1 = 0 := UInt32.toNat_inj.1 (by rw [hv, h]; rfl)
    rw [this, h]; rfl
  · have : (b >>> UInt8.ofNat (i &&& 7)).toUInt32 &&& 1 = 1 := UInt32.toNat_inj.1 (by rw [hv, h]; rfl)
    rw [this, h]; rfl

theorem powLoop_spec (hV : P.Valid) {a : Limbs} {x : ZMod P.p} (ha : Rep P a x) (e : List UInt8)
    (eoff k : Nat) (r : Limbs) (s : ZMod P.p) (hr : Rep P r s) (h : eoff + k < 8 * e.length) :
    ∃ r', fpPowLoop P a e eoff (k + 1) r = some r' ∧
      Rep P r' (s ^ 2 ^ k * x ^ (bval e / 2 ^ eoff % 2 ^ (k + 1))) := by
  induction k generalizing r s with
  | zero =>
    have hlt : (eoff + 0) / 8 < e.length := by omega
    have hb := bval_bit e (eoff + 0) _ (List.getElem?_eq_getElem hlt)
    unfold fpPowLoop
    simp only
    rw [Nat.shiftRight_eq_div_pow, show (2 : Nat) ^ 3 = 8 from rfl, List.getElem?_eq_getElem hlt]
    simp only [powCtl, add_zero, if_true]
    refine ⟨_, rfl, ?_⟩
    rw [fpCond_eq_select]
    have hm := rep_mul hV hr ha
    have hl : r.length = (fpMul P r a).length := by rw [hr.1.1, hm.1.1]
    simp only [add_zero] at hb
    rcases Nat.mod_two_eq_zero_or_one (bval e / 2 ^ eoff) with h0 | h0
    · have : ¬ (e[eoff / 8].toNat / 2 ^ (eoff % 8) % 2 = 1) := by rw [hb, h0]; norm_num
      rw [decide_eq_false this, show ctlOf false = 0 from rfl, select_zero hl]
      simpa [h0] using hr
    · have : (e[eoff / 8].toNat / 2 ^ (eoff % 8) % 2 = 1) := by rw [hb, h0]
      rw [decide_eq_true this, show ctlOf true = 0xFFFFFFFF from rfl, select_ones hl]
      simpa [h0] using hm
  | succ k ih =>
    have hlt : (eoff + (k + 1)) / 8 < e.length := by omega
    have hb := bval_bit e (eoff + (k + 1)) _ (List.getElem?_eq_getElem hlt)
    unfold fpPowLoop
    simp only
    rw [Nat.shiftRight_eq_div_pow, show (2 : Nat) ^ 3 = 8 from rfl, List.getElem?_eq_getElem hlt]
    simp only [powCtl]
    rw [if_neg (by omega), fpCond_eq_select]
    have hm := rep_mul hV hr ha
    have hl : r.length = (fpMul P r a).length := by rw [hr.1.1, hm.1.1]
    have hmod : bval e / 2 ^ eoff % 2 ^ (k + 1 + 1) = bval e / 2 ^ eoff % 2 ^ (k + 1) +
        2 ^ (k + 1) * (bval e / 2 ^ (eoff + (k + 1)) % 2) := by
      rw [pow_succ 2 (k + 1), Nat.mod_mul, Nat.div_div_eq_div_mul, ← pow_add]
    rcases Nat.mod_two_eq_zero_or_one (bval e / 2 ^ (eoff + (k + 1))) with h0 | h0
    · rw [hb, h0, show ctlOf (decide ((0 : Nat) = 1)) = 0 from rfl, select_zero hl]
      obtain ⟨r', h1, h2⟩ := ih _ _ (rep_square hV hr) (by omega)
      refine ⟨r', h1, ?_⟩
      rw [hmod, h0]
      have e1 : (s * s) ^ 2 ^ k = s ^ 2 ^ (k + 1) := by rw [← sq, ← pow_mul, ← pow_succ']
      rw [e1] at h2
      simpa using h2
    · rw [hb, h0, show ctlOf (decide ((1 : Nat) = 1)) = 0xFFFFFFFF from rfl, select_ones hl]
      obtain ⟨r', h1, h2⟩ := ih _ _ (rep_square hV hm) (by omega)
      refine ⟨r', h1, ?_⟩
      rw [hmod, h0]
      have e1 : (s * x * (s * x)) ^ 2 ^ k = s ^ 2 ^ (k + 1) * x ^ 2 ^ (k + 1) := by
        rw [← sq, ← pow_mul, ← pow_succ', mul_pow]
      rw [e1] at h2
      rw [mul_one, pow_add x, mul_comm (x ^ (bval e / 2 ^ eoff % 2 ^ (k + 1))), ← mul_assoc]
      exact h2

theorem powExt_spec (hV : P.Valid) {a : Limbs} {x : ZMod P.p} (ha : Rep P a x) (e : List UInt8)
    (eoff n : Nat) (h : eoff + n ≤ 8 * e.length ∨ n = 0) :
    ∃ r', fpPowExt P a e eoff n = some r' ∧ Rep P r' (x ^ (bval e / 2 ^ eoff % 2 ^ n)) := by
  unfold fpPowExt
  rcases n with _ | k
  · exact ⟨P.R_VAL, rfl, by simpa [Nat.mod_one] using rep_R_VAL hV⟩
  · obtain ⟨r', h1, h2⟩ := powLoop_spec hV ha e eoff k P.R_VAL 1 (rep_R_VAL hV) (by omega)
    exact ⟨r', h1, by simpa using h2⟩

theorem powExt_none (P : FpParams) (a : Limbs) (e : List UInt8)
    (eoff n : Nat) (h : 8 * e.length < eoff + n) (hn : n ≠ 0) : fpPowExt P a e eoff n = none := by
  unfold fpPowExt
  obtain ⟨k, rfl⟩ := Nat.exists_eq_succ_of_ne_zero hn
  unfold fpPowLoop
  simp only
  have : e[(eoff + k) >>> 3]? = none := by
    rw [List.getElem?_eq_none_iff, Nat.shiftRight_eq_div_pow]; omega
  rw [this]

theorem toBytesLe_spec (n : Nat) : bval (toBytesLe n) = n ∧
    (n ≠ 0 → n.log2 + 1 ≤ 8 * (toBytesLe n).length) := by
  induction n using Nat.strong_induction_on with
  | _ n ih =>
    unfold toBytesLe
    split_ifs with h
    · refine ⟨by simp [bval]; omega, fun h0 => ?_⟩
      have : n.log2 < 8 := (Nat.log2_lt h0).2 (by norm_num; exact h)
      simp; omega
    · obtain ⟨h1, h2⟩ := ih (n / 256) (by omega)
      refine ⟨by simp [bval, h1]; omega, fun h0 => ?_⟩
      have hne : n / 256 ≠ 0 := by omega
      have h3 := h2 hne
      have h4 : n.log2 < (n / 256).log2 + 9 := by
        rw [Nat.log2_lt h0]
        have := Nat.lt_log2_self (n := n / 256)
        have e : (2 : Nat) ^ ((n / 256).log2 + 9) = 256 * 2 ^ ((n / 256).log2 + 1) := by
          rw [show (n / 256).log2 + 9 = 8 + ((n / 256).log2 + 1) by ring, pow_add]; norm_num
        rw [e]; omega
      simp only [List.length_cons]; omega

theorem powBig_spec (hV : P.Valid) {a : Limbs} {x : ZMod P.p} (ha : Rep P a x) (e : Nat) :
    ∃ r', fpPowBig P a e = some r' ∧ Rep P r' (x ^ e) := by
  unfold fpPowBig
  obtain ⟨h1, h2⟩ := toBytesLe_spec e
  by_cases h0 : e = 0
  · subst h0
    obtain ⟨r', h3, h4⟩ := powExt_spec hV ha (toBytesLe 0) 0 0 (Or.inr rfl)
    exact ⟨r', h3, by simpa [Nat.mod_one] using h4⟩
  · rw [if_neg h0]
    obtain ⟨r', h3, h4⟩ := powExt_spec hV ha (toBytesLe e) 0 (e.log2 + 1) (Or.inl (by
      have := h2 h0; omega))
    refine ⟨r', h3, ?_⟩
    rw [h1, pow_zero, Nat.div_one, Nat.mod_eq_of_lt Nat.lt_log2_self] at h4
    exact h4

/-! ### Windowed exponentiation -/

theorem winTable_length (a : Limbs) (k : Nat) : (winTable P a k).length = k + 1 := by
  induction k with
  | zero => rfl
  | succ k ih => simp [winTable, ih]

theorem winTable_spec (hV : P.Valid) {a : Limbs} {x : ZMod P.p} (ha : Rep P a x) (k : Nat) :
    ∀ i, i ≤ k → Rep P ((winTable P a k).getD i []) (x ^ (i + 1)) := by
  induction k with
  | zero =>
    intro i hi
    have : i = 0 := by omega
    subst this
    simpa [winTable] using ha
  | succ k ih =>
    intro i hi
    have hl := winTable_length (P := P) a k
    unfold winTable
    simp only
    rcases Nat.lt_or_ge i (k + 1) with hlt | hge
    · rw [List.getD_eq_getElem?_getD, List.getElem?_append_left (by omega),
        ← List.getD_eq_getElem?_getD]
      exact ih i (by omega)
    · have : i = k + 1 := by omega
      subst this
      rw [List.getD_eq_getElem?_getD, List.getElem?_append_right (by omega), hl]
      simp only [Nat.sub_self, List.getElem?_cons_zero, Option.getD_some]
      split_ifs with hc
      · have hsh : (k + 1) >>> 1 = (k + 1) / 2 := by rw [Nat.shiftRight_eq_div_pow, pow_one]
        rw [hsh]
        have := rep_square hV (ih ((k + 1) / 2) (by omega))
        rw [← pow_add] at this
        have e : (k + 1) / 2 + 1 + ((k + 1) / 2 + 1) = k + 1 + 1 := by omega
        rwa [e] at this
      · have := rep_mul hV ha (ih k le_rfl)
        rwa [← pow_succ'] at this

theorem squares_spec (hV : P.Valid) {r : Limbs} {s : ZMod P.p} (hr : Rep P r s) (n : Nat) :
    Rep P ((fpSquare P)^[n] r) (s ^ 2 ^ n) := by
  induction n with
  | zero => simpa using hr
  | succ n ih =>
    rw [Function.iterate_succ_apply']
    have := rep_square hV ih
    rwa [← pow_add, ← two_mul, ← pow_succ'] at this

theorem winLoop_spec (hV : P.Valid) {a : Limbs} {x : ZMod P.p} (ha : Rep P a x) (ds : List Nat)
    (hd : ∀ d ∈ ds, d < 2 ^ P.WIN_LEN) (r : Limbs) (n : Nat) (hr : Rep P r (x ^ n)) :
    Rep P (winLoop P (winTable P a (2 ^ P.WIN_LEN - 2)) ds r)
      (x ^ (n * 2 ^ (P.WIN_LEN * ds.length) + digitVal P.WIN_LEN ds.reverse)) := by
  induction ds generalizing r n with
  | nil => simpa [winLoop, digitVal] using hr
  | cons d ds ih =>
    simp only [winLoop]
    have h1 := squares_spec hV hr P.WIN_LEN
    rw [← pow_mul] at h1
    have hdd := hd d (by simp)
    have key : Rep P (if d ≠ 0 then fpMul P ((fpSquare P)^[P.WIN_LEN] r)
        ((winTable P a (2 ^ P.WIN_LEN - 2)).getD (d - 1) []) else (fpSquare P)^[P.WIN_LEN] r)
        (x ^ (n * 2 ^ P.WIN_LEN + d)) := by
      split_ifs with h0
      · have h2 := rep_mul hV h1 (winTable_spec hV ha (2 ^ P.WIN_LEN - 2) (d - 1) (by omega))
        rw [← pow_add, show d - 1 + 1 = d by omega] at h2
        exact h2
      · have : d = 0 := by omega
        rw [this, add_zero]; exact h1
    have h3 := ih (fun d' hd' => hd d' (by simp [hd'])) _ _ key
    have e : digitVal P.WIN_LEN (d :: ds).reverse
        = digitVal P.WIN_LEN ds.reverse + 2 ^ (P.WIN_LEN * ds.length) * d := by
      rw [List.reverse_cons]
      have gen : ∀ l : List Nat, digitVal P.WIN_LEN (l ++ [d])
          = digitVal P.WIN_LEN l + 2 ^ (P.WIN_LEN * l.length) * d := by
        intro l
        induction l with
        | nil => simp [digitVal]
        | cons c l ihl =>
          simp only [List.cons_append, digitVal, ihl, List.length_cons, Nat.mul_succ, pow_add]
          ring
      rw [gen, List.length_reverse]
    rw [e]
    have e2 : (n * 2 ^ P.WIN_LEN + d) * 2 ^ (P.WIN_LEN * ds.length) + digitVal P.WIN_LEN ds.reverse
        = n * 2 ^ (P.WIN_LEN * (d :: ds).length) +
          (digitVal P.WIN_LEN ds.reverse + 2 ^ (P.WIN_LEN * ds.length) * d) := by
      rw [List.length_cons, Nat.mul_succ, pow_add]; ring
    rw [← e2]
    exact h3

theorem winPow_spec (hV : P.Valid) {a : Limbs} {x : ZMod P.p} (ha : Rep P a x) (eh : List Nat)
    (el : Nat) (h : WinDigits P.WIN_LEN eh) :
    Rep P (winPow P a eh el) (x ^ (digitVal P.WIN_LEN eh * 2 ^ (P.WIN_LEN * el))) := by
  obtain ⟨hd, d, hlast, hd0⟩ := h
  unfold winPow
  simp only
  rcases hrev : eh.reverse with _ | ⟨c, cs⟩
  · have : eh = [] := by simpa using hrev
    rw [this] at hlast; simp at hlast
  · have heh : eh = cs.reverse ++ [c] := by
      have := congrArg List.reverse hrev
      simpa using this
    have hc : c = d := by rw [heh] at hlast; simpa using hlast
    simp only
    have hcm : c ∈ eh := by rw [heh]; simp
    have hclt := hd c hcm
    have h1 := winTable_spec hV ha (2 ^ P.WIN_LEN - 2) (c - 1) (by omega)
    rw [show c - 1 + 1 = c by omega] at h1
    have h2 := winLoop_spec hV ha cs (fun d' hd' => hd d' (by rw [heh]; simp [hd'])) _ _ h1
    have e : c * 2 ^ (P.WIN_LEN * cs.length) + digitVal P.WIN_LEN cs.reverse = digitVal P.WIN_LEN eh := by
      rw [heh]
      have gen : ∀ l : List Nat, digitVal P.WIN_LEN (l ++ [c])
          = digitVal P.WIN_LEN l + 2 ^ (P.WIN_LEN * l.length) * c := by
        intro l
        induction l with
        | nil => simp [digitVal]
        | cons c l ihl =>
          simp only [List.cons_append, digitVal, ihl, List.length_cons, Nat.mul_succ, pow_add]
          ring
      rw [gen, List.length_reverse]; ring
    rw [e] at h2
    have h3 := squares_spec hV h2 (P.WIN_LEN * el)
    rw [← pow_mul] at h3
    exact h3

theorem headD_bval_mod (b : List UInt8) : (b.headD 0).toNat % 2 = bval b % 2 := by
  cases b with
  | nil => rfl
  | cons x xs => simp only [List.headD_cons, bval]; omega

theorem rootFinish_spec (hV : P.Valid) {a : Limbs} {x : ZMod P.p} (ha : Rep P a x) :
    Rep P (rootFinish P a 0) 0 ∧
    ∃ s, Rep P (rootFinish P a 0xFFFFFFFF) s ∧ (s = x ∨ s = -x) ∧ s.val % 2 = 0 := by
  have hpp : NeZero P.p := ⟨(p_pos hV).ne'⟩
  have hctl : ∀ (a : Limbs) (x : ZMod P.p), Rep P a x →
      -(((fpEncode P a).headD 0).toUInt32 &&& 1) = ctlOf (decide (x.val % 2 = 1)) := by
    intro a x ha
    obtain ⟨-, h2⟩ := encode_spec hV ha
    have hv : (((fpEncode P a).headD 0).toUInt32 &&& 1).toNat = x.val % 2 := by
      rw [UInt32.toNat_and, UInt8.toNat_toUInt32, show (1 : UInt32).toNat = 1 from rfl,
        Nat.and_one_is_mod, headD_bval_mod, h2]
    rcases Nat.mod_two_eq_zero_or_one x.val with h | h
    · rw [show ((fpEncode P a).headD 0).toUInt32 &&& 1 = 0 from
        UInt32.toNat_inj.1 (by rw [hv, h]; rfl), h]; rfl
    · rw [show ((fpEncode P a).headD 0).toUInt32 &&& 1 = 1 from
        UInt32.toNat_inj.1 (by rw [hv, h]; rfl), h]; rfl
  constructor
  · unfold rootFinish
    simp only
    rw [ctl64_zero, map_and_zero, ha.1.1]
    have hz := rep_zero hV
    have h0 := hctl _ _ hz
    change Rep P (fpCondNeg P (fpZero P) _) 0
    rw [show -(((fpEncode P (List.replicate P.N 0)).headD 0).toUInt32 &&& 1) = _ from h0]
    have := rep_condneg hV hz (decide ((0 : ZMod P.p).val % 2 = 1))
    simpa using this
  · unfold rootFinish
    simp only
    rw [ctl64_ones, map_and_ones, hctl _ _ ha]
    have h := rep_condneg hV ha (decide (x.val % 2 = 1))
    refine ⟨_, h, ?_, ?_⟩
    · split_ifs <;> simp
    · split_ifs with hc
      · have hx1 : x.val % 2 = 1 := by simpa using hc
        have hne : x ≠ 0 := by intro h0; rw [h0] at hx1; simp at hx1
        have : NeZero x := ⟨hne⟩
        rw [ZMod.val_neg_of_ne_zero]
        have := x.val_lt
        have := hV.odd
        omega
      · simp at hc; exact hc

end Festa
