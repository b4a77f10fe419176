import Verif.Lemmas.Fp2
/-! Powers, batch inversion and encodings in the extension field. -/
namespace Festa
variable {P : FpParams}

theorem pow2Loop_spec (hV : P.Valid) {a : Fp2} {x : F2 P} (ha : Rep2 P a x) (e : List UInt8)
    (eoff k : Nat) (r : Fp2) (s : F2 P) (hr : Rep2 P r s) (h : eoff + k < 8 * e.length) :
    ∃ r', fp2PowLoop P a e eoff (k + 1) r = some r' ∧
      Rep2 P r' (s ^ 2 ^ k * x ^ (bval e / 2 ^ eoff % 2 ^ (k + 1))) := by
  induction k generalizing r s with
  | zero =>
    have hlt : (eoff + 0) / 8 < e.length := by omega
    have hb := bval_bit e (eoff + 0) _ (List.getElem?_eq_getElem hlt)
    unfold fp2PowLoop
    simp only
    rw [Nat.shiftRight_eq_div_pow, show (2 : Nat) ^ 3 = 8 from rfl, List.getElem?_eq_getElem hlt]
    simp only [powCtl, if_true]
    refine ⟨_, rfl, ?_⟩
    have hc := cond2_form hr (rep2_mul hV hr ha)
      (decide (e[(eoff + 0) / 8].toNat / 2 ^ ((eoff + 0) % 8) % 2 = 1))
    refine cast (congrArg _ ?_) hc
    rw [hb]
    simp only [add_zero, pow_zero, pow_one, zero_add]
    rcases Nat.mod_two_eq_zero_or_one (bval e / 2 ^ eoff) with h0 | h0 <;> simp [h0]
  | succ k ih =>
    have hlt : (eoff + (k + 1)) / 8 < e.length := by omega
    have hb := bval_bit e (eoff + (k + 1)) _ (List.getElem?_eq_getElem hlt)
    unfold fp2PowLoop
    simp only
    rw [Nat.shiftRight_eq_div_pow, show (2 : Nat) ^ 3 = 8 from rfl, List.getElem?_eq_getElem hlt]
    simp only [powCtl]
    rw [if_neg (by omega)]
    have hc := cond2_form hr (rep2_mul hV hr ha)
      (decide (e[(eoff + (k + 1)) / 8].toNat / 2 ^ ((eoff + (k + 1)) % 8) % 2 = 1))
    obtain ⟨r', h1, h2⟩ := ih _ _ (rep2_square hV hc) (by omega)
    refine ⟨r', h1, cast (congrArg _ ?_) h2⟩
    have hmod : bval e / 2 ^ eoff % 2 ^ (k + 1 + 1) = bval e / 2 ^ eoff % 2 ^ (k + 1) +
        2 ^ (k + 1) * (bval e / 2 ^ (eoff + (k + 1)) % 2) := by
      rw [pow_succ 2 (k + 1), Nat.mod_mul, Nat.div_div_eq_div_mul, ← pow_add]
    rw [hb, hmod]
    rcases Nat.mod_two_eq_zero_or_one (bval e / 2 ^ (eoff + (k + 1))) with h0 | h0
    · simp only [h0, Nat.zero_ne_one, decide_false, Bool.false_eq_true, if_false, mul_zero, add_zero]
      rw [← sq, ← pow_mul, ← pow_succ']
    · simp only [h0, decide_true, if_true, mul_one]
      rw [← sq, ← pow_mul, ← pow_succ', mul_pow, pow_add x]; ring

theorem pow2Ext_spec (hV : P.Valid) {a : Fp2} {x : F2 P} (ha : Rep2 P a x) (e : List UInt8)
    (eoff n : Nat) (h : eoff + n ≤ 8 * e.length ∨ n = 0) :
    ∃ r', fp2PowExt P a e eoff n = some r' ∧ Rep2 P r' (x ^ (bval e / 2 ^ eoff % 2 ^ n)) := by
  unfold fp2PowExt
  rcases n with _ | k
  · exact ⟨fp2One P, rfl, by simpa [Nat.mod_one] using rep2_one hV⟩
  · obtain ⟨r', h1, h2⟩ := pow2Loop_spec hV ha e eoff k (fp2One P) 1 (rep2_one hV) (by omega)
    exact ⟨r', h1, by simpa using h2⟩

theorem pow2Ext_none (P : FpParams) (a : Fp2) (e : List UInt8)
    (eoff n : Nat) (h : 8 * e.length < eoff + n) (hn : n ≠ 0) : fp2PowExt P a e eoff n = none := by
  unfold fp2PowExt
  obtain ⟨k, rfl⟩ := Nat.exists_eq_succ_of_ne_zero hn
  unfold fp2PowLoop
  simp only
  have : e[(eoff + k) >>> 3]? = none := by
    rw [List.getElem?_eq_none_iff, Nat.shiftRight_eq_div_pow]; omega
  rw [this]

theorem pow2Bits_spec (hV : P.Valid) {a : Fp2} {x : F2 P} (ha : Rep2 P a x) (bs : List UInt8)
    (e : Nat) (h1 : bval bs = e) (h2 : e ≠ 0 → Nat.log2 e < 8 * bs.length) :
    ∃ r, fp2PowExt P a bs 0 (if e = 0 then 0 else Nat.log2 e + 1) = some r ∧ Rep2 P r (x ^ e) := by
  by_cases h0 : e = 0
  · subst h0
    rw [if_pos rfl]
    obtain ⟨r', h3, h4⟩ := pow2Ext_spec hV ha bs 0 0 (Or.inr rfl)
    exact ⟨r', h3, by simpa [Nat.mod_one] using h4⟩
  · rw [if_neg h0]
    obtain ⟨r', h3, h4⟩ := pow2Ext_spec hV ha bs 0 (e.log2 + 1) (Or.inl (by
      have := h2 h0; omega))
    refine ⟨r', h3, ?_⟩
    rw [h1, pow_zero, Nat.div_one, Nat.mod_eq_of_lt Nat.lt_log2_self] at h4
    exact h4

theorem pow2Big_spec (hV : P.Valid) {a : Fp2} {x : F2 P} (ha : Rep2 P a x) (e : Nat) :
    ∃ r, fp2PowBig P a e = some r ∧ Rep2 P r (x ^ e) := by
  obtain ⟨h1, h2⟩ := toBytesLe_spec e
  exact pow2Bits_spec hV ha _ e h1 (fun h => by have := h2 h; omega)

theorem pow2Small_spec (hV : P.Valid) {a : Fp2} {x : F2 P} (ha : Rep2 P a x) (e : UInt32) :
    ∃ r, fp2PowSmall P a e = some r ∧ Rep2 P r (x ^ e.toNat) := by
  obtain ⟨h1, h2⟩ := leBytes_spec 4 e.toUInt64
  have hlt := e.toNat_lt
  refine pow2Bits_spec hV ha _ e.toNat ?_ (fun h => ?_)
  · rw [h2, UInt32.toNat_toUInt64, Nat.mod_eq_of_lt (by omega)]
  · rw [h1]
    exact (Nat.log2_lt h).mpr (by omega)

/-! ### 64-bit exponents -/

theorem bit64_form (e : UInt64) (i : Nat) (hi : i < 64) :
    bit64 e i = if e.toNat / 2 ^ i % 2 = 1 then 1 else 0 := by
  have hv : (bit64 e i).toNat = e.toNat / 2 ^ i % 2 := by
    unfold bit64
    rw [UInt32.toNat_and, UInt64.toNat_toUInt32, UInt64.toNat_shiftRight,
      show (1 : UInt32).toNat = 1 from rfl, Nat.and_one_is_mod, Nat.shiftRight_eq_div_pow]
    have : (UInt64.ofNat i).toNat % 64 = i := by
      rw [UInt64.toNat_ofNat']; omega
    rw [this]; omega
  rcases Nat.mod_two_eq_zero_or_one (e.toNat / 2 ^ i) with h | h
  · rw [if_neg (by omega)]; exact UInt32.toNat_inj.1 (by rw [hv, h]; rfl)
  · rw [if_pos h]; exact UInt32.toNat_inj.1 (by rw [hv, h]; rfl)

theorem bit64_neg (e : UInt64) (i : Nat) (hi : i < 64) :
    -(bit64 e i) = ctlOf (decide (e.toNat / 2 ^ i % 2 = 1)) := by
  rw [bit64_form e i hi]
  rcases Nat.mod_two_eq_zero_or_one (e.toNat / 2 ^ i) with h | h <;> rw [h] <;> rfl

theorem bit64_sub (e : UInt64) (i : Nat) (hi : i < 64) :
    bit64 e i - 1 = ctlOf (!decide (e.toNat / 2 ^ i % 2 = 1)) := by
  rw [bit64_form e i hi]
  rcases Nat.mod_two_eq_zero_or_one (e.toNat / 2 ^ i) with h | h <;> rw [h] <;> rfl

theorem powU64Loop_spec (hV : P.Valid) {a : Fp2} {x : F2 P} (ha : Rep2 P a x) (e : UInt64)
    (k : Nat) (hk : k ≤ 64) (r : Fp2) (s : F2 P) (hr : Rep2 P r s) :
    Rep2 P (fp2PowU64Loop P a e k r) (s ^ 2 ^ k * x ^ (e.toNat % 2 ^ k)) := by
  induction k generalizing r s with
  | zero => simpa [fp2PowU64Loop, Nat.mod_one] using hr
  | succ k ih =>
    unfold fp2PowU64Loop
    simp only
    rw [bit64_neg e k (by omega)]
    have hs := rep2_square hV hr
    have hc := cond2_form hs (rep2_mul hV hs ha) (decide (e.toNat / 2 ^ k % 2 = 1))
    have := ih (by omega) _ _ hc
    refine cast (congrArg _ ?_) this
    have hmod : e.toNat % 2 ^ (k + 1) = e.toNat % 2 ^ k + 2 ^ k * (e.toNat / 2 ^ k % 2) := by
      rw [pow_succ 2 k, Nat.mod_mul]
    rw [hmod]
    rcases Nat.mod_two_eq_zero_or_one (e.toNat / 2 ^ k) with h0 | h0
    · simp only [h0, Nat.zero_ne_one, decide_false, Bool.false_eq_true, if_false, mul_zero, add_zero]
      rw [← sq, ← pow_mul, ← pow_succ']
    · simp only [h0, decide_true, if_true, mul_one]
      rw [mul_pow, ← sq, ← pow_mul, ← pow_succ', pow_add x]; ring

theorem powU64_spec (hV : P.Valid) {a : Fp2} {x : F2 P} (ha : Rep2 P a x) (e : UInt64)
    (n : Nat) (hn : n ≤ 64) :
    ∃ r, fp2PowU64 P a e n = some r ∧ Rep2 P r (x ^ (e.toNat % 2 ^ n)) := by
  match n with
  | 0 => exact ⟨_, rfl, by simpa [Nat.mod_one] using rep2_one hV⟩
  | 1 =>
    refine ⟨_, rfl, ?_⟩
    have e0 : (e.toUInt32 &&& 1) - 1 = bit64 e 0 - 1 := by unfold bit64; simp
    rw [e0, bit64_sub e 0 (by omega)]
    refine cast (congrArg _ ?_) (cond2_form ha (rep2_one hV) _)
    rcases Nat.mod_two_eq_zero_or_one e.toNat with h | h <;> simp [h]
  | n + 2 =>
    unfold fp2PowU64
    simp only
    rw [if_neg (by omega)]
    refine ⟨_, rfl, ?_⟩
    rw [bit64_sub e (n + 1) (by omega)]
    have := powU64Loop_spec hV ha e (n + 1) (by omega) _ _ (cond2_form ha (rep2_one hV)
      (!decide (e.toNat / 2 ^ (n + 1) % 2 = 1)))
    refine cast (congrArg _ ?_) this
    have hmod : e.toNat % 2 ^ (n + 2) = e.toNat % 2 ^ (n + 1) + 2 ^ (n + 1) * (e.toNat / 2 ^ (n + 1) % 2) := by
      rw [pow_succ 2 (n + 1), Nat.mod_mul]
    rw [hmod]
    rcases Nat.mod_two_eq_zero_or_one (e.toNat / 2 ^ (n + 1)) with h0 | h0
    · simp [h0]
    · simp only [h0, decide_true, Bool.not_true, Bool.false_eq_true, if_false, mul_one]
      rw [pow_add x]; ring

theorem varLoop_spec (hV : P.Valid) {x : F2 P} (e : UInt64) (xw : Nat → Fp2)
    (hw : ∀ i, i < 3 → Rep2 P (xw i) (x ^ (i + 1))) (k : Nat) (hk : k ≤ 31) (r : Fp2) (s : F2 P)
    (hr : Rep2 P r s) :
    Rep2 P (fp2VarLoop P xw e k r) (s ^ 4 ^ k * x ^ (e.toNat % 4 ^ k)) := by
  induction k generalizing r s with
  | zero => simpa [fp2VarLoop, Nat.mod_one] using hr
  | succ k ih =>
    have hd : ((e >>> UInt64.ofNat (2 * k)) &&& 3).toNat = e.toNat / 4 ^ k % 4 := by
      rw [UInt64.toNat_and, UInt64.toNat_shiftRight, show (3 : UInt64).toNat = 2 ^ 2 - 1 from rfl,
        Nat.and_two_pow_sub_one_eq_mod, Nat.shiftRight_eq_div_pow]
      have : (UInt64.ofNat (2 * k)).toNat % 64 = 2 * k := by
        rw [UInt64.toNat_ofNat']; omega
      rw [this, pow_mul]; norm_num
    unfold fp2VarLoop
    simp only
    rw [hd]
    have hs := rep2_square hV (rep2_square hV hr)
    have hmod : e.toNat % 4 ^ (k + 1) = e.toNat % 4 ^ k + 4 ^ k * (e.toNat / 4 ^ k % 4) := by
      rw [pow_succ 4 k, Nat.mod_mul]
    have e4 : s * s * (s * s) = s ^ 4 := by ring
    by_cases h0 : e.toNat / 4 ^ k % 4 = 0
    · rw [h0, if_neg (by omega)]
      have := ih (by omega) _ _ hs
      refine cast (congrArg _ ?_) this
      rw [hmod, h0, e4, ← pow_mul, ← pow_succ']; simp
    · rw [if_pos (by omega)]
      have hm := rep2_mul hV hs (hw (e.toNat / 4 ^ k % 4 - 1) (by omega))
      have := ih (by omega) _ _ hm
      refine cast (congrArg _ ?_) this
      rw [hmod, e4, show e.toNat / 4 ^ k % 4 - 1 + 1 = e.toNat / 4 ^ k % 4 by omega, mul_pow,
        ← pow_mul, ← pow_mul, ← pow_succ', pow_add x, mul_comm (4 ^ k) (e.toNat / 4 ^ k % 4)]
      ring

theorem powVartime_spec (hV : P.Valid) {a : Fp2} {x : F2 P} (ha : Rep2 P a x) (e : UInt64) :
    Rep2 P (fp2PowU64Vartime P a e) (x ^ e.toNat) := by
  unfold fp2PowU64Vartime
  by_cases h0 : e = 0
  · rw [if_pos h0, h0]; simpa using rep2_one hV
  rw [if_neg h0]
  by_cases h1 : e = 1
  · rw [if_pos h1, h1]; simpa using ha
  rw [if_neg h1]
  have hxx := rep2_square hV ha
  by_cases h2 : e = 2
  · rw [if_pos h2, h2]; rwa [show x ^ (2 : UInt64).toNat = x * x from sq x]
  rw [if_neg h2]
  by_cases h3 : e = 3
  · rw [if_pos h3, h3]
    have := rep2_mul hV ha hxx
    rwa [show x ^ (3 : UInt64).toNat = x * (x * x) by
      rw [show (3 : UInt64).toNat = 3 from rfl]; ring]
  rw [if_neg h3]
  by_cases h4 : e = 4
  · rw [if_pos h4, h4]
    have := rep2_square hV hxx
    rwa [show x ^ (4 : UInt64).toNat = (x * x) * (x * x) by
      rw [show (4 : UInt64).toNat = 4 from rfl]; ring]
  rw [if_neg h4]
  simp only
  have hne : e.toNat ≠ 0 := fun h => h0 (UInt64.toNat_inj.1 (by rw [h]; rfl))
  have hlt := e.toNat_lt
  have hlog : e.toNat.log2 < 64 := (Nat.log2_lt hne).mpr hlt
  obtain ⟨k, hk⟩ : ∃ k, k = e.toNat.log2 / 2 := ⟨_, rfl⟩
  rw [← hk]
  have hlo : 4 ^ k ≤ e.toNat := by
    have h := Nat.log2_self_le hne
    have : 4 ^ k ≤ 2 ^ e.toNat.log2 := by
      rw [show (4 : Nat) = 2 ^ 2 from rfl, ← pow_mul]
      exact Nat.pow_le_pow_right (by norm_num) (by omega)
    omega
  have hhi : e.toNat < 4 ^ (k + 1) := by
    have h : e.toNat < 2 ^ (e.toNat.log2 + 1) := Nat.lt_log2_self
    have : 2 ^ (e.toNat.log2 + 1) ≤ 4 ^ (k + 1) := by
      rw [show (4 : Nat) = 2 ^ 2 from rfl, ← pow_mul]
      exact Nat.pow_le_pow_right (by norm_num) (by omega)
    omega
  have hsh : (e >>> UInt64.ofNat (2 * k)).toNat = e.toNat / 4 ^ k := by
    rw [UInt64.toNat_shiftRight, Nat.shiftRight_eq_div_pow]
    have : (UInt64.ofNat (2 * k)).toNat % 64 = 2 * k := by
      rw [UInt64.toNat_ofNat']; omega
    rw [this, pow_mul]; norm_num
  have hq1 : 1 ≤ e.toNat / 4 ^ k := (Nat.one_le_div_iff (by positivity)).mpr hlo
  have hq2 : e.toNat / 4 ^ k < 4 := by
    rw [Nat.div_lt_iff_lt_mul (by positivity), mul_comm, ← pow_succ]; exact hhi
  have hw : ∀ i, i < 3 → Rep2 P ((fun i => if i = 0 then a else if i = 1 then fp2Square P a else
      fp2Mul P (fp2Square P a) a) i) (x ^ (i + 1)) := by
    intro i hi
    rcases i with _ | _ | _ | i
    · simpa using ha
    · simpa [sq] using hxx
    · have := rep2_mul hV hxx ha
      rwa [show x * x * x = x ^ 3 by ring] at this
    · omega
  have hs := hw (e.toNat / 4 ^ k - 1) (by omega)
  rw [hsh]
  have := varLoop_spec hV e _ hw k (by omega) _ _ hs
  refine cast (congrArg _ ?_) this
  rw [show e.toNat / 4 ^ k - 1 + 1 = e.toNat / 4 ^ k by omega, ← pow_mul, ← pow_add]
  congr 1
  rw [mul_comm]; exact Nat.div_add_mod _ _

/-! ### Batch inversion -/

/-- The reference inverse with the code's convention for zero. -/
def IsInv0 (w z : F2 P) : Prop := (z ≠ 0 → w * z = 1) ∧ (z = 0 → w = 0)

/-- Entry with zero replaced by one. -/
noncomputable def nz (z : F2 P) : F2 P := by classical exact if z = 0 then 1 else z

theorem nz_form (hV : P.Valid) {a : Fp2} {z : F2 P} (ha : Rep2 P a z) :
    Rep2 P (fp2Cond a (fp2One P) (fp2IsZero a)) (nz z) := by
  obtain ⟨c, h1, h2⟩ := iszero2_form hV ha
  rw [h1]
  refine cast (congrArg _ ?_) (cond2_form ha (rep2_one hV) c)
  unfold nz
  by_cases hz : z = 0
  · rw [if_pos (h2.mpr hz), if_pos hz]
  · rw [if_neg (fun h => hz (h2.mp h)), if_neg hz]

theorem batchFwd_spec (hV : P.Valid) (xs : List Fp2) (zs : List (F2 P))
    (h : List.Forall₂ (Rep2 P) xs zs) (prev : Fp2) (t : F2 P) (hp : Rep2 P prev t) :
    (batchFwd P prev xs).length = xs.length ∧
    Rep2 P ((prev :: batchFwd P prev xs).getLastD prev) (t * (zs.map nz).prod) := by
  refine ⟨?_, ?_⟩
  · clear h hp
    induction xs generalizing prev with
    | nil => rfl
    | cons x xs ih => simp [batchFwd, ih]
  · induction h generalizing prev t with
    | nil => simpa [batchFwd] using hp
    | cons hx _ ih =>
      rename_i x z xs zs _
      have h1 := rep2_mul hV (nz_form hV hx) hp
      have h2 := ih _ _ h1
      have e : (prev :: batchFwd P prev (x :: xs)).getLastD prev =
          ((fp2Mul P (fp2Cond x (fp2One P) (fp2IsZero x)) prev) ::
            batchFwd P (fp2Mul P (fp2Cond x (fp2One P) (fp2IsZero x)) prev) xs).getLastD
              (fp2Mul P (fp2Cond x (fp2One P) (fp2IsZero x)) prev) := by
        simp only [batchFwd]
        rfl
      rw [e]
      refine cast (congrArg _ ?_) h2
      rw [List.map_cons, List.prod_cons]; ring

/-- The backward pass: `k` holds the inverse of `t` times the product of the entries. -/
theorem batchBack_spec (hV : P.Valid) (xs : List Fp2) (zs : List (F2 P))
    (h : List.Forall₂ (Rep2 P) xs zs) (prev : Fp2) (t : F2 P) (hp : Rep2 P prev t) (k : Fp2)
    (w : F2 P) (hk : Rep2 P k w) (hw : w * (t * (zs.map nz).prod) = 1) :
    (∃ u, Rep2 P (batchBack P (List.zip xs (prev :: batchFwd P prev xs)) k).2 u ∧ u * t = 1) ∧
    List.Forall₂ (fun r z => ∃ v, Rep2 P r v ∧ IsInv0 v z)
      (batchBack P (List.zip xs (prev :: batchFwd P prev xs)) k).1 zs := by
  induction h generalizing prev t with
  | nil =>
    refine ⟨⟨w, hk, by simpa using hw⟩, ?_⟩
    simp [batchBack]
  | cons hx _ ih =>
    rename_i x z xs zs _
    have h1 := rep2_mul hV (nz_form hV hx) hp
    have h2 := ih _ _ h1 (by rw [← hw, List.map_cons, List.prod_cons]; ring)
    obtain ⟨⟨u, hu, hut⟩, hall⟩ := h2
    obtain ⟨c, hc1, hc2⟩ := iszero2_form hV hx
    simp only [batchFwd, List.zip_cons_cons, batchBack]
    refine ⟨⟨u * nz z, rep2_mul hV hu (nz_form hV hx), by rw [← hut]; ring⟩, ?_⟩
    refine List.Forall₂.cons ?_ hall
    rw [hc1, ctl_not]
    rw [hc1] at hu
    refine ⟨_, cond2_form hx (rep2_mul hV hu hp) (!c), ?_⟩
    by_cases hz : z = 0
    · rw [hc2.mpr hz]
      exact ⟨fun h => absurd hz h, fun _ => by simpa using hz⟩
    · have : c = false := by
        cases c
        · rfl
        · exact absurd (hc2.mp rfl) hz
      rw [this]
      refine ⟨fun _ => ?_, fun h => absurd h hz⟩
      have en : nz z = z := by unfold nz; rw [if_neg hz]
      rw [en] at hut
      simp only [Bool.not_false, if_true]
      rw [← hut]; ring

theorem nz_ne_zero (hR : P.RootValid) (z : F2 P) : nz z ≠ 0 := by
  have := Fact.mk hR.prime
  unfold nz
  by_cases hz : z = 0
  · rw [if_pos hz]; exact one_ne_zero
  · rw [if_neg hz]; exact hz

theorem nz_prod_ne_zero (hR : P.RootValid) (zs : List (F2 P)) : (zs.map nz).prod ≠ 0 := by
  have := Fact.mk hR.prime
  have := f2_fact hR
  induction zs with
  | nil => simp
  | cons z zs ih => rw [List.map_cons, List.prod_cons]; exact mul_ne_zero (nz_ne_zero hR z) ih

theorem batchOne_spec (hV : P.Valid) (hD : P.DivValid) (hR : P.RootValid) (xs : List Fp2)
    (zs : List (F2 P)) (h : List.Forall₂ (Rep2 P) xs zs) :
    List.Forall₂ (fun r z => ∃ v, Rep2 P r v ∧ IsInv0 v z) (batchOne P xs) zs := by
  have := Fact.mk hR.prime
  have := f2_fact hR
  cases h with
  | nil => simp [batchOne]
  | cons hx hxs =>
    rename_i x z xs zs
    have h0 := nz_form hV hx
    obtain ⟨-, hl⟩ := batchFwd_spec hV xs zs hxs _ _ h0
    obtain ⟨w, hw, hw1, -⟩ := rep2_div hV hD hR (rep2_one hV) hl
    have hne : nz z * (zs.map nz).prod ≠ 0 := mul_ne_zero (nz_ne_zero hR z) (nz_prod_ne_zero hR zs)
    obtain ⟨⟨u, hu, hut⟩, hall⟩ := batchBack_spec hV xs zs hxs _ _ h0 _ w hw (hw1 hne)
    obtain ⟨c, hc1, hc2⟩ := iszero2_form hV hx
    unfold batchOne
    simp only
    refine List.Forall₂.cons ?_ hall
    rw [hc1, ctl_not]
    rw [hc1] at hu
    refine ⟨_, cond2_form hx hu (!c), ?_⟩
    by_cases hz : z = 0
    · rw [hc2.mpr hz]
      exact ⟨fun h => absurd hz h, fun _ => by simpa using hz⟩
    · have hcf : c = false := by
        cases c
        · rfl
        · exact absurd (hc2.mp rfl) hz
      rw [hcf]
      refine ⟨fun _ => ?_, fun h => absurd h hz⟩
      have en : nz z = z := by unfold nz; rw [if_neg hz]
      rw [en] at hut
      simpa using hut

theorem batchInvert_spec (hV : P.Valid) (hD : P.DivValid) (hR : P.RootValid) (n : Nat) :
    ∀ (xs : List Fp2) (zs : List (F2 P)), xs.length ≤ n → List.Forall₂ (Rep2 P) xs zs →
    List.Forall₂ (fun r z => ∃ v, Rep2 P r v ∧ IsInv0 v z) (fp2BatchInvert P xs) zs := by
  induction n with
  | zero =>
    intro xs zs hn h
    have : xs = [] := List.eq_nil_of_length_eq_zero (by omega)
    subst this
    cases h
    rw [fp2BatchInvert]; simp
  | succ n ih =>
    intro xs zs hn h
    rw [fp2BatchInvert]
    by_cases h0 : xs.length = 0
    · have : xs = [] := List.eq_nil_of_length_eq_zero h0
      subst this
      cases h
      simp
    · rw [dif_neg h0]
      rw [← List.take_append_drop 200 zs]
      refine List.rel_append (batchOne_spec hV hD hR _ _ (List.forall₂_take 200 h)) ?_
      exact ih _ _ (by rw [List.length_drop]; omega) (List.forall₂_drop 200 h)

end Festa
