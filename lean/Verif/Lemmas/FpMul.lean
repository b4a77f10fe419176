import Verif.Lemmas.FpAdd
import Mathlib.Tactic.LinearCombination
/-! Montgomery reduction, multiplication and squaring over limbs: exact integer statements. -/
namespace Festa

variable {P : FpParams}

/-- The multiplier `f = x0 * P0I` clears the low word. -/
theorem p0i_clears (hV : P.Valid) {m0 : UInt64} {ms : Limbs} (hm : P.MODULUS = m0 :: ms)
    (x0 : UInt64) :
    (umullAdd (x0 * P.P0I) m0 x0).1 = 0 := by
  have h := umullAdd_spec (x0 * P.P0I) m0 x0
  have hp := hV.p0i
  have hlt := (umullAdd (x0 * P.P0I) m0 x0).1.toNat_lt
  rw [P.p_def, hm, lval_cons] at hp
  rw [← UInt64.toNat_inj, UInt64.toNat_zero]
  have e : (umullAdd (x0 * P.P0I) m0 x0).1.toNat ≡ 0 [MOD 2 ^ 64] := by
    have h1 : (x0 * P.P0I).toNat ≡ x0.toNat * P.P0I.toNat [MOD 2 ^ 64] := by
      rw [UInt64.toNat_mul]; exact Nat.mod_modEq _ _
    have h2 : P.P0I.toNat * m0.toNat + 1 ≡ 0 [MOD 2 ^ 64] := by
      have : P.P0I.toNat * (m0.toNat + 2 ^ 64 * lval ms) + 1
          = P.P0I.toNat * m0.toNat + 1 + 2 ^ 64 * (P.P0I.toNat * lval ms) := by ring
      rw [this, Nat.add_mul_mod_self_left] at hp
      exact hp
    have h3 : (umullAdd (x0 * P.P0I) m0 x0).1.toNat
        ≡ (x0 * P.P0I).toNat * m0.toNat + x0.toNat [MOD 2 ^ 64] := by
      rw [← h]; exact (Nat.ModEq.symm (by
        unfold Nat.ModEq; rw [Nat.add_mul_mod_self_left]))
    calc _ ≡ (x0 * P.P0I).toNat * m0.toNat + x0.toNat [MOD 2 ^ 64] := h3
      _ ≡ x0.toNat * P.P0I.toNat * m0.toNat + x0.toNat [MOD 2 ^ 64] :=
          (h1.mul_right _).add_right _
      _ = x0.toNat * (P.P0I.toNat * m0.toNat + 1) := by ring
      _ ≡ x0.toNat * 0 [MOD 2 ^ 64] := h2.mul_left _
      _ = 0 := by ring
  unfold Nat.ModEq at e
  rw [Nat.mod_eq_of_lt hlt] at e
  simpa using e

/-- One Montgomery round divides by `2^64` after adding a multiple of `p`. -/
theorem montyRound_spec (hV : P.Valid) {x : Limbs} (hx : x.length = P.N) :
    (montyRound P x).length = P.N ∧
    ∃ f, f < 2 ^ 64 ∧ 2 ^ 64 * lval (montyRound P x) = lval x + f * P.p := by
  have hN := hV.N_two
  have hlen := hV.len
  rcases hm : P.MODULUS with _ | ⟨m0, ms⟩
  · rw [hm] at hlen; simp at hlen; omega
  rcases x with _ | ⟨x0, xs⟩
  · simp at hx; omega
  have hl : ms.length = xs.length := by
    rw [hm] at hlen; simp at hlen hx; omega
  have h0 := p0i_clears hV hm x0
  have h1 := umullAdd_spec (x0 * P.P0I) m0 x0
  have h2 := macLoop_spec (x0 * P.P0I) hl (umullAdd (x0 * P.P0I) m0 x0).2
  have h3 := macLoop_length (x0 * P.P0I) hl (umullAdd (x0 * P.P0I) m0 x0).2
  rw [h0] at h1
  unfold montyRound
  rw [hm]
  simp only
  refine ⟨by simp [h3]; rw [hm] at hlen; simpa using hlen, (x0 * P.P0I).toNat,
    (x0 * P.P0I).toNat_lt, ?_⟩
  rw [lval_append, h3, P.p_def, hm]
  simp only [lval_cons, lval_nil, UInt64.toNat_zero] at h1 ⊢
  linarith

/-- `n` Montgomery rounds divide by `2^(64 n)`. -/
theorem montyRounds_spec (hV : P.Valid) {x : Limbs} (hx : x.length = P.N) (n : Nat) :
    ((montyRound P)^[n] x).length = P.N ∧
    ∃ f, f < (2 ^ 64) ^ n ∧ (2 ^ 64) ^ n * lval ((montyRound P)^[n] x) = lval x + f * P.p := by
  induction n with
  | zero => exact ⟨hx, 0, by simp, by simp⟩
  | succ n ih =>
    obtain ⟨hl, f, hf, h⟩ := ih
    obtain ⟨hl', g, hg, h'⟩ := montyRound_spec hV hl
    rw [Function.iterate_succ_apply']
    refine ⟨hl', f + (2 ^ 64) ^ n * g, ?_, ?_⟩
    · rw [Wsucc]
      have : (2 ^ 64) ^ n * (g + 1) ≤ (2 ^ 64) ^ n * 2 ^ 64 := Nat.mul_le_mul_left _ hg
      nlinarith
    · rw [Wsucc, mul_assoc, h', mul_add, h]; ring

theorem R_pos (P : FpParams) : 0 < P.R := by rw [P.R_def]; positivity

/-- Full Montgomery reduction: `R * out = x + f * p` with `f < R`; a reduced input gives a reduced
output and any input gives at most `p`. -/
theorem montyRed_spec (hV : P.Valid) {x : Limbs} (hx : x.length = P.N) :
    (montyRed P x).length = P.N ∧ lval (montyRed P x) ≤ P.p ∧
    (lval x < P.p → lval (montyRed P x) < P.p) ∧
    ∃ f, f < P.R ∧ P.R * lval (montyRed P x) = lval x + f * P.p := by
  obtain ⟨hl, f, hf, h⟩ := montyRounds_spec hV hx P.N
  have hxR := lval_lt_R (P := P) hx
  rw [← P.R_def] at hf h
  have hR := R_pos P
  refine ⟨hl, ?_, ?_, f, hf, h⟩
  · have : P.R * lval (montyRed P x) < P.R * (P.p + 1) := by
      have h1 : (f + 1) * P.p ≤ P.R * P.p := Nat.mul_le_mul_right _ hf
      unfold montyRed
      nlinarith
    exact Nat.lt_succ_iff.1 (Nat.lt_of_mul_lt_mul_left this)
  · intro hlt
    have : P.R * lval (montyRed P x) < P.R * P.p := by
      have h1 : (f + 1) * P.p ≤ P.R * P.p := Nat.mul_le_mul_right _ hf
      unfold montyRed
      nlinarith
    exact Nat.lt_of_mul_lt_mul_left this

theorem mulInner_spec (f g : UInt64) {a t m : Limbs} (h1 : a.length = t.length)
    (h2 : m.length = t.length) (c1 c2 : UInt64) :
    (mulInner f g a t m c1 c2).1.length = t.length ∧
    lval (mulInner f g a t m c1 c2).1 +
      (2 ^ 64) ^ t.length *
        ((mulInner f g a t m c1 c2).2.1.toNat + (mulInner f g a t m c1 c2).2.2.toNat)
      = f.toNat * lval a + g.toNat * lval m + lval t + c1.toNat + c2.toNat := by
  induction t generalizing a m c1 c2 with
  | nil =>
    have ha : a = [] := by simpa using h1
    have hm : m = [] := by simpa using h2
    subst ha; subst hm; simp [mulInner]
  | cons b bs ih =>
    rcases a with _ | ⟨a, as⟩
    · simp at h1
    rcases m with _ | ⟨m, ms⟩
    · simp at h2
    have e1 := umullAdd2_spec f a b c1
    have e2 := umullAdd2_spec g m (umullAdd2 f a b c1).1 c2
    obtain ⟨l3, e3⟩ := ih (a := as) (m := ms) (by simpa using h1) (by simpa using h2)
      (umullAdd2 f a b c1).2 (umullAdd2 g m (umullAdd2 f a b c1).1 c2).2
    simp only [mulInner, lval_cons, List.length_cons, Wsucc]
    refine ⟨by rw [l3], ?_⟩
    linarith

/-- Integer value of the accumulator of `set_mul`. -/
private def accv (P : FpParams) (st : Limbs × Bool) : Nat := lval st.1 + P.R * st.2.toNat

theorem mulRound_spec (hV : P.Valid) {a : Limbs} (ha : a.length = P.N)
    {st : Limbs × Bool} (hst : st.1.length = P.N) (f : UInt64) :
    (mulRound P a st f).1.length = P.N ∧
    ∃ g, g < 2 ^ 64 ∧
      2 ^ 64 * (lval (mulRound P a st f).1 + P.R * (mulRound P a st f).2.toNat)
        = lval st.1 + P.R * st.2.toNat + f.toNat * lval a + g * P.p := by
  have hN := hV.N_two
  have hlen := hV.len
  have hR : P.R = (2 ^ 64) ^ (P.N - 1) * 2 ^ 64 := by
    rw [P.R_def, ← Wsucc]; congr 1; omega
  obtain ⟨t, cch⟩ := st
  rcases hm : P.MODULUS with _ | ⟨m0, ms⟩
  · rw [hm] at hlen; simp at hlen; omega
  rcases a with _ | ⟨a0, as⟩
  · simp at ha; omega
  rcases t with _ | ⟨t0, ts⟩
  · simp at hst; omega
  rw [hm] at hlen
  simp only [List.length_cons] at hlen ha hst
  have e1 := umullAdd_spec f a0 t0
  have h0 := p0i_clears hV hm (umullAdd f a0 t0).1
  have e2 := umullAdd_spec ((umullAdd f a0 t0).1 * P.P0I) m0 (umullAdd f a0 t0).1
  rw [h0] at e2
  obtain ⟨l3, e3⟩ := mulInner_spec f ((umullAdd f a0 t0).1 * P.P0I) (a := as) (t := ts) (m := ms)
    (by omega) (by omega) (umullAdd f a0 t0).2
    (umullAdd ((umullAdd f a0 t0).1 * P.P0I) m0 (umullAdd f a0 t0).1).2
  have e4 := addcarry_spec
    (mulInner f ((umullAdd f a0 t0).1 * P.P0I) as ts ms (umullAdd f a0 t0).2
      (umullAdd ((umullAdd f a0 t0).1 * P.P0I) m0 (umullAdd f a0 t0).1).2).2.1
    (mulInner f ((umullAdd f a0 t0).1 * P.P0I) as ts ms (umullAdd f a0 t0).2
      (umullAdd ((umullAdd f a0 t0).1 * P.P0I) m0 (umullAdd f a0 t0).1).2).2.2 cch
  have hts : ts.length = P.N - 1 := by omega
  unfold mulRound
  rw [hm]
  simp only
  refine ⟨by simp [l3]; omega, ((umullAdd f a0 t0).1 * P.P0I).toNat,
    ((umullAdd f a0 t0).1 * P.P0I).toNat_lt, ?_⟩
  rw [lval_append, l3, P.p_def, hm, hR]
  rw [hts] at e3 ⊢
  simp only [lval_cons, lval_nil, UInt64.toNat_zero] at e2 ⊢
  generalize (2 ^ 64) ^ (P.N - 1) = Q at *
  linear_combination (2 ^ 64) * e3 + e1 + e2 + 2 ^ 64 * Q * e4

theorem mulFold_spec (hV : P.Valid) {a : Limbs} (ha : Reduced P a) (b : Limbs)
    (st : Limbs × Bool) (hst : st.1.length = P.N)
    (hlt : lval st.1 + P.R * st.2.toNat < 2 * P.p) :
    (b.foldl (mulRound P a) st).1.length = P.N ∧
    lval (b.foldl (mulRound P a) st).1 + P.R * (b.foldl (mulRound P a) st).2.toNat < 2 * P.p ∧
    ∃ g, (2 ^ 64) ^ b.length *
      (lval (b.foldl (mulRound P a) st).1 + P.R * (b.foldl (mulRound P a) st).2.toNat)
        = lval st.1 + P.R * st.2.toNat + lval b * lval a + g * P.p := by
  induction b generalizing st with
  | nil => exact ⟨hst, hlt, 0, by simp⟩
  | cons f fs ih =>
    obtain ⟨hl, g, hg, h⟩ := mulRound_spec hV ha.1 hst f
    have hlt' : lval (mulRound P a st f).1 + P.R * (mulRound P a st f).2.toNat < 2 * P.p := by
      have hf := f.toNat_lt
      have hA := ha.2
      have h1 : (f.toNat + 1) * lval a ≤ 2 ^ 64 * P.p := Nat.mul_le_mul hf hA.le
      have h2 : (f.toNat) * lval a ≤ (2 ^ 64 - 1) * P.p := Nat.mul_le_mul (by omega) hA.le
      have h3 : g * P.p ≤ (2 ^ 64 - 1) * P.p := Nat.mul_le_mul_right _ (by omega)
      have : 2 ^ 64 * (lval (mulRound P a st f).1 + P.R * (mulRound P a st f).2.toNat)
          < 2 ^ 64 * (2 * P.p) := by
        rw [h]
        omega
      exact Nat.lt_of_mul_lt_mul_left this
    obtain ⟨hl2, hlt2, g2, h2⟩ := ih (mulRound P a st f) hl hlt'
    simp only [List.foldl_cons, List.length_cons, Wsucc, lval_cons]
    refine ⟨hl2, hlt2, g + 2 ^ 64 * g2, ?_⟩
    linear_combination 2 ^ 64 * h2 + h

/-- `set_mul`: `R * out ≡ a * b (mod p)` with a reduced result. Only `a` needs to be reduced. -/
theorem fpMul_lval (hV : P.Valid) {a b : Limbs} (ha : Reduced P a) (hb : b.length = P.N) :
    Reduced P (fpMul P a b) ∧ P.R * lval (fpMul P a b) ≡ lval a * lval b [MOD P.p] := by
  have hp := p_pos hV
  have hz : (fpZero P).length = P.N := by simp [fpZero]
  have hzv : lval (fpZero P) = 0 := lval_replicate_zero _
  obtain ⟨hl, hlt, g, h⟩ := mulFold_spec hV ha b (fpZero P, false) hz (by
    simp only [hzv, Bool.toNat_false]; omega)
  have h3 := finalSub_spec hV hl _ hlt
  unfold fpMul
  simp only
  have hmod : lval (finalSub P (b.foldl (mulRound P a) (fpZero P, false)).1
      (b.foldl (mulRound P a) (fpZero P, false)).2)
      ≡ lval (b.foldl (mulRound P a) (fpZero P, false)).1
        + P.R * (b.foldl (mulRound P a) (fpZero P, false)).2.toNat [MOD P.p] := by
    rw [h3.2]
    split_ifs with hc
    · have hpR := p_lt_R hV
      have : (b.foldl (mulRound P a) (fpZero P, false)).2.toNat = 0 := by
        by_contra hne
        have : 1 ≤ (b.foldl (mulRound P a) (fpZero P, false)).2.toNat := by omega
        nlinarith
      rw [this]; simp; rfl
    · unfold Nat.ModEq
      rw [← Nat.mod_eq_sub_mod (by omega)]
  refine ⟨⟨h3.1, ?_⟩, ?_⟩
  · rw [h3.2]; split_ifs <;> omega
  · rw [hb, ← P.R_def, hzv] at h
    simp only [Bool.toNat_false, mul_zero, zero_add] at h
    calc _ ≡ P.R * (lval (b.foldl (mulRound P a) (fpZero P, false)).1
        + P.R * (b.foldl (mulRound P a) (fpZero P, false)).2.toNat) [MOD P.p] := hmod.mul_left _
      _ = lval a * lval b + g * P.p := by rw [h]; ring
      _ ≡ lval a * lval b [MOD P.p] := by unfold Nat.ModEq; simp

/-! ### Squaring -/

theorem lval_take_drop (n : Nat) (x : Limbs) (h : n ≤ x.length) :
    lval (x.take n) + (2 ^ 64) ^ n * lval (x.drop n) = lval x := by
  conv_rhs => rw [← List.take_append_drop n x, lval_append]
  rw [List.length_take, min_eq_left h]

/-- Off-diagonal sum `Σ_{i<j} a_i a_j W^{i+j-1}`-part, defined recursively. -/
private def offv : Limbs → Nat
  | [] => 0
  | f :: rest => f.toNat * lval rest + (2 ^ 64) ^ 2 * offv rest

theorem lval_sq_off (a : Limbs) :
    lval a * lval a = 2 * (2 ^ 64 * offv a) +
      (a.foldr (fun x acc => x.toNat * x.toNat + (2 ^ 64) ^ 2 * acc) 0) := by
  induction a with
  | nil => rfl
  | cons f rest ih =>
    simp only [lval_cons, offv, List.foldr_cons]
    linear_combination (2 ^ 64) ^ 2 * ih

theorem sqRows_spec (a w : Limbs) (h : w.length = a.length - 1) :
    (sqRows a w).length = 2 * (a.length - 1) ∧ lval (sqRows a w) = lval w + offv a := by
  induction a generalizing w with
  | nil =>
    have : w = [] := by simpa using h
    subst this; simp [sqRows, offv]
  | cons f rest ih =>
    rcases rest with _ | ⟨g, gs⟩
    · have : w = [] := by simpa using h
      subst this; simp [sqRows, offv]
    · have hl : (g :: gs).length = w.length := by simpa using h.symm
      have e := macLoop_spec f hl 0
      have l := macLoop_length f hl 0
      unfold sqRows
      simp only
      generalize hrow : (macLoop f (g :: gs) w 0).1 ++ [(macLoop f (g :: gs) w 0).2] = row
      have hrl : row.length = gs.length + 2 := by rw [← hrow]; simp [l]
      have hrv : lval row = f.toNat * lval (g :: gs) + lval w := by
        rw [← hrow, lval_append, l]
        simp only [lval_cons, lval_nil] at e ⊢
        simpa using e
      obtain ⟨l2, e2⟩ := ih (row.drop 2) (by rw [List.length_drop, hrl]; simp)
      have e3 := lval_take_drop 2 row (by omega)
      refine ⟨?_, ?_⟩
      · simp only [List.length_append, List.length_take, hrl, l2, List.length_cons]
        omega
      · rw [lval_append, e2, List.length_take, min_eq_left (by omega)]
        show _ = lval w + (f.toNat * lval (g :: gs) + (2 ^ 64) ^ 2 * offv (g :: gs))
        linear_combination e3 + hrv

theorem shl1_or_toNat (w cc : UInt64) (hc : cc.toNat ≤ 1) :
    ((w <<< 1) ||| cc).toNat + 2 ^ 64 * (w >>> 63).toNat = 2 * w.toNat + cc.toNat := by
  have h1 : ((w <<< 1) ||| cc).toNat = (2 * w.toNat) % 2 ^ 64 + cc.toNat := by
    rw [UInt64.toNat_or, UInt64.toNat_shiftLeft]
    have : (w.toNat <<< ((1 : UInt64).toNat % 64)) % 2 ^ 64 = ((w.toNat % 2 ^ 63) <<< 1) := by
      rw [show (1 : UInt64).toNat % 64 = 1 from rfl, Nat.shiftLeft_eq, Nat.shiftLeft_eq]; omega
    rw [this, ← Nat.shiftLeft_add_eq_or_of_lt (by omega), Nat.shiftLeft_eq]
    omega
  have h2 : (w >>> 63).toNat = w.toNat / 2 ^ 63 := by
    rw [UInt64.toNat_shiftRight, show (63 : UInt64).toNat % 64 = 63 from rfl, Nat.shiftRight_eq_div_pow]
  rw [h1, h2]
  omega

theorem shr63_le (w : UInt64) : (w >>> 63).toNat ≤ 1 := by
  have h2 : (w >>> 63).toNat = w.toNat / 2 ^ 63 := by
    rw [UInt64.toNat_shiftRight, show (63 : UInt64).toNat % 64 = 63 from rfl, Nat.shiftRight_eq_div_pow]
  have := w.toNat_lt
  omega

theorem dblLoop_spec (x : Limbs) (cc : UInt64) (hc : cc.toNat ≤ 1) :
    (dblLoop x cc).1.length = x.length ∧ (dblLoop x cc).2.toNat ≤ 1 ∧
    lval (dblLoop x cc).1 + (2 ^ 64) ^ x.length * (dblLoop x cc).2.toNat
      = 2 * lval x + cc.toNat := by
  induction x generalizing cc with
  | nil => simp [dblLoop, hc]
  | cons w ws ih =>
    obtain ⟨l, b, e⟩ := ih (w >>> 63) (shr63_le w)
    have e1 := shl1_or_toNat w cc hc
    simp only [dblLoop, List.length_cons, lval_cons, Wsucc]
    refine ⟨by rw [l], b, ?_⟩
    linear_combination e1 + 2 ^ 64 * e

theorem diagLoop_spec (a t : Limbs) (h : t.length = 2 * a.length) (cc : Bool) :
    (diagLoop a t cc).length = 2 * a.length ∧ ∃ c : Bool,
    lval (diagLoop a t cc) + (2 ^ 64) ^ (2 * a.length) * c.toNat = lval t +
      a.foldr (fun x acc => x.toNat * x.toNat + (2 ^ 64) ^ 2 * acc) 0 + cc.toNat := by
  induction a generalizing t cc with
  | nil =>
    have : t = [] := by simpa using h
    subst this
    exact ⟨rfl, cc, by simp [diagLoop]⟩
  | cons a as ih =>
    rcases t with _ | ⟨t0, _ | ⟨t1, ts⟩⟩
    · simp at h
    · simp at h; omega
    have e1 := umull_spec a a
    have e2 := addcarry_spec (umull a a).1 t0 cc
    have e3 := addcarry_spec (umull a a).2 t1 (addcarry (umull a a).1 t0 cc).2
    obtain ⟨l, c, e4⟩ := ih ts (by simp at h; omega)
      (addcarry (umull a a).2 t1 (addcarry (umull a a).1 t0 cc).2).2
    simp only [diagLoop, List.length_cons, lval_cons, List.foldr_cons]
    refine ⟨by rw [l]; ring, c, ?_⟩
    rw [show 2 * (as.length + 1) = 2 * as.length + 1 + 1 by ring, Wsucc, Wsucc]
    linear_combination e1 + e2 + 2 ^ 64 * e3 + (2 ^ 64) ^ 2 * e4

theorem sqWide_spec (a : Limbs) (ha : 1 ≤ a.length) :
    (sqWide a).length = 2 * a.length ∧ lval (sqWide a) = lval a * lval a := by
  obtain ⟨l1, e1⟩ := sqRows_spec a (List.replicate (a.length - 1) 0) (by simp)
  rw [lval_replicate_zero, zero_add] at e1
  obtain ⟨l2, b2, e2⟩ := dblLoop_spec (sqRows a (List.replicate (a.length - 1) 0)) 0 (by simp)
  unfold sqWide
  simp only
  generalize hd : dblLoop (sqRows a (List.replicate (a.length - 1) 0)) 0 = dd at *
  obtain ⟨l3, c, e3⟩ := diagLoop_spec a (0 :: (dd.1 ++ [dd.2])) (by
    simp [l2, l1]; omega) false
  refine ⟨l3, ?_⟩
  have e4 := lval_sq_off a
  have h5 := lval_lt a
  have h6 : lval a * lval a < (2 ^ 64) ^ (2 * a.length) := by
    rw [two_mul, pow_add]
    exact Nat.mul_lt_mul'' h5 h5
  have e5 : lval (0 :: (dd.1 ++ [dd.2])) = 2 ^ 64 * (2 * offv a) := by
    rw [lval_cons, lval_append, l2]
    simp only [lval_cons, lval_nil, UInt64.toNat_zero] at e2 ⊢
    rw [e1] at e2
    linear_combination 2 ^ 64 * e2
  rw [e5] at e3
  have e6 : lval (diagLoop a (0 :: (dd.1 ++ [dd.2])) false) + (2 ^ 64) ^ (2 * a.length) * c.toNat
      = lval a * lval a := by
    rw [e3, e4]; simp only [Bool.toNat_false]; ring
  cases c
  · simpa using e6
  · simp only [Bool.toNat_true, mul_one] at e6; omega

/-- `set_square`: `R * out ≡ a² (mod p)` with a reduced result. -/
theorem fpSquare_lval (hV : P.Valid) {a : Limbs} (ha : Reduced P a) :
    Reduced P (fpSquare P a) ∧ P.R * lval (fpSquare P a) ≡ lval a * lval a [MOD P.p] := by
  have hN := hV.N_two
  have haN := ha.1
  obtain ⟨l, e⟩ := sqWide_spec a (by omega)
  have hlo : ((sqWide a).take P.N).length = P.N := by rw [List.length_take, l]; omega
  have hhi : ((sqWide a).drop P.N).length = P.N := by rw [List.length_drop, l]; omega
  have e1 := lval_take_drop P.N (sqWide a) (by omega)
  rw [← P.R_def, e] at e1
  obtain ⟨l2, hle, -, f, -, hf⟩ := montyRed_spec hV hlo
  have hR := p_lt_R hV
  have hhi_lt : lval ((sqWide a).drop P.N) < P.p := by
    have h1 : lval a * lval a < P.R * P.p :=
      Nat.mul_lt_mul'' (ha.2.trans hR) ha.2
    have : P.R * lval ((sqWide a).drop P.N) < P.R * P.p := by omega
    exact Nat.lt_of_mul_lt_mul_left this
  have h3 := fpAdd_int hV l2 hhi (by omega)
  unfold fpSquare
  simp only
  have hmod : lval (fpAdd P (montyRed P ((sqWide a).take P.N)) ((sqWide a).drop P.N))
      ≡ lval (montyRed P ((sqWide a).take P.N)) + lval ((sqWide a).drop P.N) [MOD P.p] := by
    rw [h3.2]
    split_ifs with hc
    · rfl
    · unfold Nat.ModEq; rw [← Nat.mod_eq_sub_mod (by omega)]
  refine ⟨⟨h3.1, ?_⟩, ?_⟩
  · rw [h3.2]; split_ifs <;> omega
  · calc _ ≡ P.R * (lval (montyRed P ((sqWide a).take P.N)) + lval ((sqWide a).drop P.N))
          [MOD P.p] := hmod.mul_left _
      _ = lval a * lval a + f * P.p := by rw [mul_add, hf, ← e1]; ring
      _ ≡ _ [MOD P.p] := by unfold Nat.ModEq; simp

end Festa
