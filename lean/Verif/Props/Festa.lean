import Verif.Lemmas.FestaCodec
import Verif.Props.EC
import Verif.Lemmas.DiagB
/-!
Properties C51 and C52 (encodings), C53 (`recover_diagB`) and C55 (equality of inputs).  C54 is in
`Verif/Props/Trapdoor.lean`.
-/
namespace Festa

/-! ### C51 -/

section
variable {K : Type*} [Field K] [DecidableEq K] [Codec K] [LawfulCodec K]

omit [DecidableEq K] [Codec K] [LawfulCodec K] in
/-- Normalising the coordinates does not change an affine point. -/
theorem C51_same_point {A : K} {P : Pt K} {Q : MPoint A} (hz : P.Z ≠ 0) (h : PRep P Q) :
    PRep (Pt.newXY P.toXY.1 P.toXY.2) Q := by
  rcases Q with _ | ⟨x, y, hq⟩
  · exact absurd h hz
  · obtain ⟨-, h1, h2⟩ := h
    refine ⟨one_ne_zero, ?_, ?_⟩
    · show P.X * P.Z⁻¹ = x * 1
      rw [h1, mul_one, mul_assoc, mul_inv_cancel₀ hz, mul_one]
    · show P.Y * P.Z⁻¹ = y * 1
      rw [h2, mul_one, mul_assoc, mul_inv_cancel₀ hz, mul_one]

/-- C51: decoding the encoding of a secret key gives back the curve, the points with normalised
coordinates and the numbers, in builds with and without debug assertions; for points at infinity see
`C51_infinity`, for longer numbers `C51_long`.  The key generator makes numbers below `2^634`. -/
theorem C51_roundtrip (sk : SecretKey K) (hE : sk.EA'.Good) (ha : sk.a11 < 2 ^ 656)
    (hb : sk.a22 < 2 ^ 656) :
    ∃ v, sk.encode = some v ∧ v.length = 9 * Codec.encLen K + 164 ∧
      ∀ chk, SecretKey.decode chk v = some ⟨sk.EA',
        Pt.newXY sk.P1.toXY.1 sk.P1.toXY.2, Pt.newXY sk.Q1.toXY.1 sk.Q1.toXY.2,
        Pt.newXY sk.P2.toXY.1 sk.P2.toXY.2, Pt.newXY sk.Q2.toXY.1 sk.Q2.toXY.2, sk.a11, sk.a22⟩ := by
  obtain ⟨b1, h1, l1, v1⟩ := (encodeNat_spec sk.a11).1 ha
  obtain ⟨b2, h2, l2, v2⟩ := (encodeNat_spec sk.a22).1 hb
  obtain ⟨xs, hxs⟩ : ∃ xs : List K, xs = [sk.EA'.A, sk.P1.toXY.1, sk.P1.toXY.2, sk.Q1.toXY.1,
    sk.Q1.toXY.2, sk.P2.toXY.1, sk.P2.toXY.2, sk.Q2.toXY.1, sk.Q2.toXY.2] := ⟨_, rfl⟩
  have henc : sk.encode = some ((xs.map Codec.encode).flatten ++ b1 ++ b2) := by
    unfold SecretKey.encode
    dsimp only
    rw [h1, h2, hxs]
    simp only [List.map_cons, List.map_nil, List.flatten_cons, List.flatten_nil, List.append_nil,
      List.append_assoc]
  have hl : (xs.map Codec.encode).flatten.length = Codec.encLen K * 9 := by
    rw [flatten_length, hxs]; rfl
  have hlen : ((xs.map Codec.encode).flatten ++ b1 ++ b2).length = 9 * Codec.encLen K + 164 := by
    rw [List.length_append, List.length_append, hl, l1, l2]; ring
  refine ⟨_, henc, hlen, fun chk => ?_⟩
  unfold SecretKey.decode
  have hg : (chk && ((xs.map Codec.encode).flatten ++ b1 ++ b2).length != Codec.encLen K * 9 + 82 * 2)
      = false := by
    rw [hlen, show 9 * Codec.encLen K + 164 = Codec.encLen K * 9 + 82 * 2 by ring]
    simp
  rw [hg]
  have hd := decodeFields_encode chk xs [] (b1 ++ b2)
  rw [List.nil_append, ← List.append_assoc] at hd
  have h9 : xs.length = 9 := by rw [hxs]; rfl
  rw [h9, List.length_nil] at hd
  have s1 : slice ((xs.map Codec.encode).flatten ++ b1 ++ b2) (Codec.encLen K * 9) 82 = some b1 := by
    rw [← hl, ← l1]; exact slice_mid _ _ _
  have s2 : slice ((xs.map Codec.encode).flatten ++ b1 ++ b2) (Codec.encLen K * 9 + 82) 82 = some b2 := by
    have := slice_mid ((xs.map Codec.encode).flatten ++ b1) b2 []
    rwa [List.append_nil, List.length_append, hl, l1, l2] at this
  simp only [Bool.false_eq_true, if_false]
  rw [hd, hxs]
  dsimp only
  rw [← hxs, s1, s2, hE.new_eq]
  dsimp only
  rw [v1, v2]

omit [DecidableEq K] [LawfulCodec K] in
/-- Numbers of more than 82 bytes are not encoded: the code panics. -/
theorem C51_long (sk : SecretKey K) (h : 2 ^ 656 ≤ sk.a11 ∨ 2 ^ 656 ≤ sk.a22) : sk.encode = none := by
  unfold SecretKey.encode
  dsimp only
  rcases h with h | h
  · rw [(encodeNat_spec sk.a11).2 h]
  · rw [(encodeNat_spec sk.a22).2 h]
    rcases encodeNat sk.a11 with _ | _ <;> rfl

/-- With debug assertions nothing but encodings is accepted: whatever is decoded encodes to the same
bytes. -/
theorem C51_canonical (v : List UInt8) (sk : SecretKey K) (h : SecretKey.decode true v = some sk) :
    sk.encode = some v := by
  unfold SecretKey.decode at h
  split_ifs at h with hl
  have hlen : v.length = Codec.encLen K * 9 + 82 * 2 := by simpa using hl
  split at h
  · rename_i A x1 y1 x2 y2 x3 y3 x4 y4 hd
    obtain ⟨-, -, hf⟩ := decodeFields_some v 9 0 hd
    dsimp only at h
    split at h
    · rename_i a11 a22 E s1 s2 hE
      obtain ⟨-, e1, l1⟩ := slice_eq s1
      obtain ⟨-, e2, l2⟩ := slice_eq s2
      rw [Option.some.injEq] at h
      subst h
      have hA : E.A = A := by
        unfold Crv.new at hE
        split_ifs at hE
        rw [Option.some.injEq] at hE
        rw [← hE]
      have hxy : ∀ x y : K, (Pt.newXY x y).toXY = (x, y) := fun x y => by
        simp [Pt.toXY, Pt.newXY]
      unfold SecretKey.encode
      simp only [hxy, encodeNat_fromBytes l1, encodeNat_fromBytes l2, hA, Option.some.injEq]
      have e3 : v = v.take (Codec.encLen K * 9) ++ a11 ++ a22 := by
        conv_lhs => rw [← List.take_append_drop (Codec.encLen K * 9) v]
        rw [List.append_assoc]
        congr 1
        rw [e1, e2, ← List.drop_drop]
        conv_lhs => rw [← List.take_append_drop 82 (v.drop (Codec.encLen K * 9))]
        congr 1
        rw [List.take_of_length_le]
        rw [List.length_drop, List.length_drop]; omega
      conv_rhs => rw [e3, ← List.drop_zero (l := v)]
      rw [← hf]
      simp only [List.map_cons, List.map_nil, List.flatten_cons, List.flatten_nil, List.append_nil,
        List.append_assoc]
    · exact absurd h (by simp)
  · exact absurd h (by simp)

/-- A point at infinity is not recovered: it comes back as the point `(0, 0)`. -/
theorem C51_infinity (sk : SecretKey K) (hE : sk.EA'.Good) (ha : sk.a11 < 2 ^ 656)
    (hb : sk.a22 < 2 ^ 656) (hz : sk.P1.Z = 0) :
    ∃ v, ∃ sk' : SecretKey K, sk.encode = some v ∧ (∀ chk, SecretKey.decode chk v = some sk') ∧ sk'.P1 = ⟨0, 0, 1⟩ := by
  obtain ⟨v, h1, -, h2⟩ := C51_roundtrip sk hE ha hb
  refine ⟨v, _, h1, h2, ?_⟩
  simp [Pt.newXY, Pt.toXY, hz]

end

/-- The code's field: a key with the curve `A = 0` and the points `(i, 0)`, `(0, 0)`, `(-i, 0)`, two of
them with `Z = 2`, and numbers of 79 bytes and of one byte. -/
example : ∃ sk : SecretKey Fq, sk.a11 = 2 ^ 634 - 1 ∧ ∃ v, sk.encode = some v ∧ v.length = 3080 ∧
    (SecretKey.decode true v : Option (SecretKey Fq)).map SecretKey.a11 = some (2 ^ 634 - 1) := by
  obtain ⟨a, ha⟩ : ∃ a, a = 2 ^ 634 - 1 := ⟨_, rfl⟩
  have hlt : a < 2 ^ 656 := by
    rw [ha]
    exact lt_of_le_of_lt (Nat.sub_le _ _) (Nat.pow_lt_pow_right (by norm_num) (by norm_num))
  have h255 : 255 < 2 ^ 656 :=
    lt_of_lt_of_le (show 255 < 2 ^ 8 by norm_num) (Nat.pow_le_pow_right (by norm_num) (by norm_num))
  rw [← ha]
  obtain ⟨v, h1, h2, h3⟩ := C51_roundtrip (⟨qE, ⟨RootOps.zeta, 0, 1⟩, ⟨2 * RootOps.zeta, 0, 2⟩, ⟨0, 0, 2⟩,
    ⟨-RootOps.zeta, 0, 1⟩, a, 255⟩ : SecretKey Fq) qE_good hlt h255
  refine ⟨_, rfl, v, h1, ?_, by rw [h3 true]; rfl⟩
  rw [h2]
  show 9 * (2 * festaFp.encLen) + 164 = 3080
  rw [C23_length]

/-! ### C52 -/

section
variable {K : Type*} [Field K] [DecidableEq K] [Codec K] [LawfulCodec K]

/-- C52: decoding the encoding of a trapdoor output gives back the curves and the points, with
normalised coordinates (the same points, `C51_same_point`). -/
theorem C52_roundtrip (c : TrapdoorOutput K) (h1 : c.E1.Good) (h2 : c.E2.Good) (chk : Bool) :
    c.encode.length = 10 * Codec.encLen K ∧
    TrapdoorOutput.decode chk c.encode = some ⟨c.E1, Pt.newXY c.R1.toXY.1 c.R1.toXY.2,
      Pt.newXY c.S1.toXY.1 c.S1.toXY.2, c.E2, Pt.newXY c.R2.toXY.1 c.R2.toXY.2,
      Pt.newXY c.S2.toXY.1 c.S2.toXY.2⟩ := by
  obtain ⟨xs, hxs⟩ : ∃ xs : List K, xs = [c.E1.A, c.R1.toXY.1, c.R1.toXY.2, c.S1.toXY.1, c.S1.toXY.2,
    c.E2.A, c.R2.toXY.1, c.R2.toXY.2, c.S2.toXY.1, c.S2.toXY.2] := ⟨_, rfl⟩
  have henc : c.encode = (xs.map Codec.encode).flatten := by
    unfold TrapdoorOutput.encode
    rw [hxs]
    simp only [List.map_cons, List.map_nil, List.flatten_cons, List.flatten_nil, List.append_nil,
      List.append_assoc]
  have hl : c.encode.length = Codec.encLen K * 10 := by
    rw [henc, flatten_length, hxs]; rfl
  refine ⟨by rw [hl]; ring, ?_⟩
  unfold TrapdoorOutput.decode
  rw [hl]
  have hd := decodeFields_encode chk xs [] []
  rw [List.nil_append, List.append_nil, ← henc, List.length_nil] at hd
  have h10 : xs.length = 10 := by rw [hxs]; rfl
  rw [h10] at hd
  simp only [bne_self_eq_false, Bool.and_false, Bool.false_eq_true, if_false]
  rw [hd, hxs]
  dsimp only
  rw [h1.new_eq, h2.new_eq]

/-- C52: different outputs have different encodings; two outputs with the same encoding have the same
curves, and equal points when these are not at infinity. -/
theorem C52_injective (c d : TrapdoorOutput K) (hc : c.E1.Good ∧ c.E2.Good) (hd : d.E1.Good ∧ d.E2.Good)
    (hcz : c.R1.Z ≠ 0 ∧ c.S1.Z ≠ 0 ∧ c.R2.Z ≠ 0 ∧ c.S2.Z ≠ 0)
    (hdz : d.R1.Z ≠ 0 ∧ d.S1.Z ≠ 0 ∧ d.R2.Z ≠ 0 ∧ d.S2.Z ≠ 0) (h : c.encode = d.encode) :
    c.E1 = d.E1 ∧ c.E2 = d.E2 ∧ c.R1.equals d.R1 = true ∧ c.S1.equals d.S1 = true ∧
      c.R2.equals d.R2 = true ∧ c.S2.equals d.S2 = true := by
  have e1 := (C52_roundtrip c hc.1 hc.2 true).2
  have e2 := (C52_roundtrip d hd.1 hd.2 true).2
  rw [h, e2, Option.some.injEq] at e1
  have key : ∀ P Q : Pt K, P.Z ≠ 0 → Q.Z ≠ 0 →
      Pt.newXY Q.toXY.1 Q.toXY.2 = Pt.newXY P.toXY.1 P.toXY.2 → P.equals Q = true := by
    intro P Q hP hQ h
    simp only [Pt.newXY, Pt.toXY, Pt.mk.injEq, and_true] at h
    obtain ⟨h1, h2⟩ := h
    have x : P.X * Q.Z = Q.X * P.Z := by
      field_simp at h1; linear_combination -h1
    have y : P.Y * Q.Z = Q.Y * P.Z := by
      field_simp at h2; linear_combination -h2
    unfold Pt.equals
    simp [hP, hQ, x, y]
  simp only [TrapdoorOutput.mk.injEq] at e1
  obtain ⟨a1, a2, a3, a4, a5, a6⟩ := e1
  exact ⟨a1.symm, a4.symm, key _ _ hcz.1 hdz.1 a2, key _ _ hcz.2.1 hdz.2.1 a3,
    key _ _ hcz.2.2.1 hdz.2.2.1 a5, key _ _ hcz.2.2.2 hdz.2.2.2 a6⟩

omit [LawfulCodec K] in
/-- The restriction to finite points is needed: infinity and the point `(0, 0)` of order two have the
same encoding. -/
theorem C52_infinity_collides (E : Crv K) (P : Pt K) :
    TrapdoorOutput.encode ⟨E, Pt.inf, P, E, P, P⟩ = TrapdoorOutput.encode ⟨E, ⟨0, 0, 1⟩, P, E, P, P⟩ ∧
    (Pt.inf : Pt K).equals ⟨0, 0, 1⟩ = false := by
  constructor
  · simp [TrapdoorOutput.encode, Pt.toXY, Pt.inf]
  · simp [Pt.equals, Pt.inf]

end

/-- The code's field. -/
example : ∃ c : TrapdoorOutput Fq, c.encode.length = 3240 ∧ TrapdoorOutput.decode true c.encode = some c := by
  have hz : (RootOps.zeta : Fq) ≠ 0 := fun h => by
    have := RootOps.zeta_sq (K := Fq)
    rw [h] at this
    norm_num at this
  let c : TrapdoorOutput Fq := ⟨qE, ⟨RootOps.zeta, 0, 1⟩, ⟨0, 0, 1⟩, qE, ⟨-RootOps.zeta, 0, 1⟩, ⟨RootOps.zeta, 0, 1⟩⟩
  obtain ⟨h1, h2⟩ := C52_roundtrip c qE_good qE_good true
  refine ⟨c, ?_, ?_⟩
  · rw [h1]
    show 10 * (2 * festaFp.encLen) = 3240
    rw [C23_length]
  · rw [h2]
    simp [c, Pt.newXY, Pt.toXY]

/-! ### C53 -/

section
variable {K : Type} [Field K] [DecidableEq K]

/-- C53: for a basis `P`, `Q` of order `2^e` and every odd multiple `R = aP`, `recover_diagB` returns the
same pair for `R` and for `-R`; it is normalised and the numbers are inverse to each other. -/
theorem C53_sign_independent (chk : Bool) (S : Crypto K) (hS : S.l = 2 ^ S.c.lPower.toNat)
    (h0 : S.c.lPower ≠ 0) (hinv : S.invScalar % 2 = 1) {E : Crv K} (hE : E.Good) {p q r : Pt K}
    {P Q : MPoint E.A} (a : Nat) (ha : a % 2 = 1) (hb : IsBasis S.l P Q) (hp : PRep p P) (hq : PRep q Q)
    (hr : PRep r (a • P)) :
    ∃ b11 b22, S.recoverDiagB chk E r p q = some (b11, b22) ∧
      S.recoverDiagB chk E r.neg p q = some (b11, b22) ∧ b11 ≤ S.l / 2 ∧ b22 < S.l ∧
      b11 * b22 % S.l = 1 ∧
      (b11 ≡ S.invScalar * a [MOD S.l] ∨ b11 + S.invScalar * a ≡ 0 [MOD S.l]) := by
  have e1 : 1 ≤ S.c.lPower.toNat := Nat.one_le_iff_ne_zero.mpr (fun h => h0 (UInt32.toNat_inj.mp h))
  rw [hS] at hb
  have hpos : 0 < 2 ^ S.c.lPower.toNat := by positivity
  have hd2 : 2 ∣ 2 ^ S.c.lPower.toNat := dvd_pow_self 2 (by omega)
  have hlt := Nat.mod_lt a hpos
  have ha0 : (a % 2 ^ S.c.lPower.toNat) % 2 = 1 := by rw [Nat.mod_mod_of_dvd _ hd2, ha]
  have hne : a % 2 ^ S.c.lPower.toNat ≠ 0 := by omega
  have hr' : PRep r.neg ((2 ^ S.c.lPower.toNat - a % 2 ^ S.c.lPower.toNat) • P) := by
    have e : (2 ^ S.c.lPower.toNat - a % 2 ^ S.c.lPower.toNat) • P = -(a • P) := by
      rw [eq_neg_iff_add_eq_zero, ← add_nsmul]
      have : 2 ^ S.c.lPower.toNat - a % 2 ^ S.c.lPower.toNat + a =
          (a / 2 ^ S.c.lPower.toNat + 1) * 2 ^ S.c.lPower.toNat := by
        have := Nat.mod_add_div a (2 ^ S.c.lPower.toNat)
        rw [add_mul, one_mul, mul_comm (a / _)]
        omega
      rw [this, mul_nsmul', hb.nsmul_left, nsmul_zero]
    rw [e]
    exact prep_neg hr
  have d1 := C39_bidlp_axis_two hE chk _ h0 a ha hb hp hq hr none (Or.inl rfl)
  have d2 := C39_bidlp_axis_two hE chk _ h0 _ (by omega) hb hp hq hr' none (Or.inl rfl)
  have m2 : (2 ^ S.c.lPower.toNat - a % 2 ^ S.c.lPower.toNat) % 2 ^ S.c.lPower.toNat =
      2 ^ S.c.lPower.toNat - a % 2 ^ S.c.lPower.toNat := Nat.mod_eq_of_lt (by omega)
  rw [m2] at d2
  have hx := mul_mod_odd e1 hinv ha0
  have hxlt := Nat.mod_lt (S.invScalar * (a % 2 ^ S.c.lPower.toNat)) hpos
  obtain ⟨b11, b22, n1, n2, n3, n4, n5⟩ := diag_normalise e1 hx hxlt
  have hneg : S.invScalar * (2 ^ S.c.lPower.toNat - a % 2 ^ S.c.lPower.toNat) % 2 ^ S.c.lPower.toNat =
      2 ^ S.c.lPower.toNat - S.invScalar * (a % 2 ^ S.c.lPower.toNat) % 2 ^ S.c.lPower.toNat := by
    rw [Nat.mul_sub]
    have hle : S.invScalar * (a % 2 ^ S.c.lPower.toNat) ≤ S.invScalar * 2 ^ S.c.lPower.toNat :=
      Nat.mul_le_mul_left _ hlt.le
    have h1 := Nat.mod_add_div (S.invScalar * (a % 2 ^ S.c.lPower.toNat)) (2 ^ S.c.lPower.toNat)
    generalize S.invScalar * (a % 2 ^ S.c.lPower.toNat) = u at *
    generalize 2 ^ S.c.lPower.toNat = l at *
    have hu : u % l ≠ 0 := by omega
    have hq : u / l < S.invScalar := by
      rcases Nat.lt_or_ge (u / l) S.invScalar with h | h
      · exact h
      · have := Nat.mul_le_mul_left l h
        rw [mul_comm l S.invScalar] at this
        omega
    have : S.invScalar * l - u = (l - u % l) + l * (S.invScalar - u / l - 1) := by
      obtain ⟨c, hc⟩ : ∃ c, S.invScalar = u / l + 1 + c := ⟨S.invScalar - u / l - 1, by omega⟩
      have hc' : S.invScalar - u / l - 1 = c := by omega
      rw [hc', hc]
      have h2 : (u / l + 1 + c) * l = l * (u / l) + l + l * c := by ring
      rw [h2]
      have := Nat.mod_lt u hpos
      omega
    rw [this, Nat.add_mul_mod_self_left, Nat.mod_eq_of_lt (by omega)]
  refine ⟨b11, b22, ?_, ?_, ?_, by rw [hS]; exact n2, by rw [hS]; exact n3, ?_⟩
  · unfold Crypto.recoverDiagB
    rw [d1, hS]
    exact n5 _ (Or.inl rfl)
  · unfold Crypto.recoverDiagB
    rw [d2, hS]
    exact n5 _ (Or.inr hneg)
  · rw [hS]
    have : 2 ^ S.c.lPower.toNat = 2 * 2 ^ (S.c.lPower.toNat - 1) := by
      rw [← pow_succ']; congr 1; omega
    omega
  · have hm : S.invScalar * (a % 2 ^ S.c.lPower.toNat) % 2 ^ S.c.lPower.toNat =
        S.invScalar * a % 2 ^ S.c.lPower.toNat := by rw [Nat.mul_mod, Nat.mod_mod, ← Nat.mul_mod]
    rw [hm] at n4 hxlt
    rw [hS]
    rcases n4 with h | h
    · left
      rw [h]
      exact Nat.mod_modEq _ _
    · right
      have h1 : b11 + S.invScalar * a % 2 ^ S.c.lPower.toNat = 2 ^ S.c.lPower.toNat := by omega
      calc b11 + S.invScalar * a ≡ b11 + S.invScalar * a % 2 ^ S.c.lPower.toNat [MOD 2 ^ S.c.lPower.toNat] :=
            Nat.ModEq.add_left _ (Nat.mod_modEq _ _).symm
        _ ≡ 0 [MOD 2 ^ S.c.lPower.toNat] := by rw [h1]; exact Nat.modEq_zero_iff_dvd.mpr dvd_rfl

/-- C53 for the points met when the trapdoor is inverted: `R = ±(k b) P`, where the precomputed scalar is
the inverse of `k`.  The number `b < 2^(e-1)` is recovered with its inverse. -/
theorem C53_recover (chk : Bool) (S : Crypto K) (hS : S.l = 2 ^ S.c.lPower.toNat)
    (h1 : 2 ≤ S.c.lPower.toNat) (k : Nat) (hk : S.invScalar * k ≡ 1 [MOD S.l]) {E : Crv K} (hE : E.Good)
    {p q r : Pt K} {P Q : MPoint E.A} (b : Nat) (hodd : b % 2 = 1) (hlt : b < S.l / 2)
    (hb : IsBasis S.l P Q) (hp : PRep p P) (hq : PRep q Q)
    (hr : PRep r ((k * b) • P) ∨ PRep r (-((k * b) • P))) :
    ∃ b', S.recoverDiagB chk E r p q = some (b, b') ∧ b' < S.l ∧ b * b' % S.l = 1 := by
  have h0 : S.c.lPower ≠ 0 := fun h => by rw [h] at h1; simp at h1
  have hd2 : 2 ∣ S.l := by rw [hS]; exact dvd_pow_self 2 (by omega)
  have hik : (S.invScalar * k) % 2 = 1 := by
    have : S.invScalar * k ≡ 1 [MOD 2] := hk.of_dvd hd2
    exact this
  have hi : S.invScalar % 2 = 1 := by
    rcases Nat.mod_two_eq_zero_or_one S.invScalar with h | h
    · rw [Nat.mul_mod, h] at hik; simp at hik
    · exact h
  have hkb : (k * b) % 2 = 1 := by
    rcases Nat.mod_two_eq_zero_or_one k with h | h
    · rw [Nat.mul_mod, h] at hik; simp at hik
    · rw [Nat.mul_mod, h, hodd]
  have fin : ∀ b11 b22, b11 ≤ S.l / 2 → b22 < S.l → b11 * b22 % S.l = 1 →
      (b11 ≡ S.invScalar * (k * b) [MOD S.l] ∨ b11 + S.invScalar * (k * b) ≡ 0 [MOD S.l]) → b11 = b := by
    intro b11 b22 n1 n2 n3 n4
    have e : S.invScalar * (k * b) ≡ b [MOD S.l] := by
      rw [← mul_assoc]
      have := hk.mul_right b
      rwa [one_mul] at this
    rcases n4 with h | h
    · exact (h.trans e).eq_of_lt_of_lt (by omega) (by omega)
    · have h' : b11 + b ≡ 0 [MOD S.l] := (Nat.ModEq.add_left b11 e).symm.trans h
      have := Nat.modEq_zero_iff_dvd.mp h'
      obtain ⟨c, hc⟩ := this
      have : c = 0 := by
        rcases Nat.eq_zero_or_pos c with h | h
        · exact h
        · have := Nat.mul_le_mul_left S.l h
          omega
      subst this
      omega
  rcases hr with hr | hr
  · obtain ⟨b11, b22, r1, -, n1, n2, n3, n4⟩ := C53_sign_independent chk S hS h0 hi hE (k * b) hkb hb hp hq hr
    have := fin b11 b22 n1 n2 n3 n4
    subst this
    exact ⟨b22, r1, n2, n3⟩
  · have hr' : PRep r.neg ((k * b) • P) := by
      have := prep_neg hr
      rwa [neg_neg] at this
    obtain ⟨b11, b22, -, r1, n1, n2, n3, n4⟩ := C53_sign_independent chk S hS h0 hi hE (k * b) hkb hb hp hq hr'
    have := fin b11 b22 n1 n2 n3 n4
    subst this
    have e : r.neg.neg = r := by simp [Pt.neg]
    rw [e] at r1
    exact ⟨b22, r1, n2, n3⟩

end

/-- The order `2^6` over the field with `127^2` elements, scalar 5 (inverse 13): from `R = -(5·9)P` the
numbers 9 and `9⁻¹ = 57` are recovered. -/
example : ∃ S : Crypto F127, S.invScalar = 13 ∧ ∃ r, S.recoverDiagB true e127.E1 r p127.P1 q127.P1 = some (9, 57) := by
  obtain ⟨S, h1, h2, h3⟩ : ∃ S : Crypto F127, S.l = 64 ∧ S.c.lPower = 6 ∧ S.invScalar = 13 :=
    ⟨⟨⟨0, 0, 0, 0, 0, 0, 0, [], [], [], [], 6, 0, []⟩, e127.E1, 64, 0, 0, 0, 13, 0, 0, 0, 0, Pt.inf, Pt.inf,
      Pt.inf, Pt.inf⟩, rfl, rfl, rfl⟩
  obtain ⟨P, Q, hp, hq, hb⟩ := basis127
  obtain ⟨r, hr⟩ := exists_prep (-((5 * 9) • P))
  obtain ⟨b', e1, e2, e3⟩ := C53_recover true S (by rw [h1, h2]; rfl) (by rw [h2]; decide) 5
    (by rw [h3, h1]; rfl) e127_good 9 rfl (by rw [h1]; norm_num) (by rw [h1]; exact hb) hp hq (Or.inr hr)
  refine ⟨S, h3, r, ?_⟩
  rw [h1] at e2 e3
  have : b' = 57 := by omega
  rw [e1, this]

/-! ### C55 -/

/-- C55: inputs are equal exactly when all four numbers agree. -/
theorem C55_eq (m n : TrapdoorInput) :
    m.eq n = true ↔ m.s1 = n.s1 ∧ m.s2 = n.s2 ∧ m.b11 = n.b11 ∧ m.b22 = n.b22 := by
  simp [TrapdoorInput.eq, and_assoc]

/-- C55: equality is an equivalence relation. -/
theorem C55_equivalence : Equivalence fun m n : TrapdoorInput => m.eq n = true := by
  refine ⟨fun m => ?_, fun {m n} h => ?_, fun {m n k} h1 h2 => ?_⟩
  · rw [C55_eq]; exact ⟨rfl, rfl, rfl, rfl⟩
  · rw [C55_eq] at *; exact ⟨h.1.symm, h.2.1.symm, h.2.2.1.symm, h.2.2.2.symm⟩
  · rw [C55_eq] at *
    exact ⟨h1.1.trans h2.1, h1.2.1.trans h2.2.1, h1.2.2.1.trans h2.2.2.1, h1.2.2.2.trans h2.2.2.2⟩

example : TrapdoorInput.eq ⟨1, 2, 3, 4⟩ ⟨1, 2, 3, 4⟩ = true ∧ TrapdoorInput.eq ⟨1, 2, 3, 4⟩ ⟨1, 2, 3, 5⟩ = false := by
  decide

end Festa
