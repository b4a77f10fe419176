import Verif.Props.Festa
import Verif.Lemmas.DecodeFields
/-!
Property C89: what the decoding functions accept.
-/
namespace Festa

section
variable {K : Type*} [Field K] [DecidableEq K] [Codec K]

/-- C89, release builds: `TrapdoorOutput::decode` returns a value for every byte string that is long enough, unless one of
the two coefficients is that of a singular curve.  The rest of the string is ignored; nothing else is checked. -/
theorem C89_output_release (h2 : (2 : K) ≠ 0) (v : List UInt8) (c : TrapdoorOutput K) :
    let f := fun i => (Codec.decode ((v.drop (Codec.encLen K * i)).take (Codec.encLen K)) : K × UInt32).1
    TrapdoorOutput.decode false v = some c ↔ Codec.encLen K * 10 ≤ v.length ∧ c.E1.Good ∧ c.E2.Good ∧
      c.E1.A = f 0 ∧ c.R1 = ⟨f 1, f 2, 1⟩ ∧ c.S1 = ⟨f 3, f 4, 1⟩ ∧
      c.E2.A = f 5 ∧ c.R2 = ⟨f 6, f 7, 1⟩ ∧ c.S2 = ⟨f 8, f 9, 1⟩ := by
  intro f
  unfold TrapdoorOutput.decode
  simp only [Bool.false_and, Bool.false_eq_true, if_false]
  by_cases hl : Codec.encLen K * 10 ≤ v.length
  · have := decodeFields_release (K := K) v 10 0 (by omega)
    simp only [Nat.zero_add] at this
    rw [this]
    show (match Crv.new (f 0), Crv.new (f 5) with
      | some E1, some E2 => some (⟨E1, Pt.newXY (f 1) (f 2), Pt.newXY (f 3) (f 4), E2, Pt.newXY (f 6) (f 7),
          Pt.newXY (f 8) (f 9)⟩ : TrapdoorOutput K)
      | _, _ => none) = some c ↔ _
    constructor
    · intro h
      split at h
      · rename_i E1 E2 e1 e2
        rw [Option.some.injEq] at h
        subst h
        obtain ⟨g1, a1⟩ := (crv_new_iff h2 _ _).mp e1
        obtain ⟨g2, a2⟩ := (crv_new_iff h2 _ _).mp e2
        exact ⟨hl, g1, g2, a1, rfl, rfl, a2, rfl, rfl⟩
      · cases h
    · rintro ⟨-, g1, g2, a1, r1, s1, a2, r2, s2⟩
      rw [(crv_new_iff h2 _ c.E1).mpr ⟨g1, a1⟩, (crv_new_iff h2 _ c.E2).mpr ⟨g2, a2⟩]
      dsimp only
      unfold Pt.newXY
      rw [← r1, ← s1, ← r2, ← s2]
  · rw [decodeFields_short false v 10 0 (Nat.zero_le _) (by omega)]
    constructor
    · intro h; cases h
    · intro h; exact absurd h.1 hl

/-- C89, release builds: `SecretKey::decode` reads nine field elements and two little-endian numbers of 82 bytes and checks
only that the string is long enough and the curve is not singular. -/
theorem C89_key_release (h2 : (2 : K) ≠ 0) (v : List UInt8) (sk : SecretKey K) :
    let f := fun i => (Codec.decode ((v.drop (Codec.encLen K * i)).take (Codec.encLen K)) : K × UInt32).1
    SecretKey.decode false v = some sk ↔ Codec.encLen K * 9 + 164 ≤ v.length ∧ sk.EA'.Good ∧
      sk.EA'.A = f 0 ∧ sk.P1 = ⟨f 1, f 2, 1⟩ ∧ sk.Q1 = ⟨f 3, f 4, 1⟩ ∧ sk.P2 = ⟨f 5, f 6, 1⟩ ∧ sk.Q2 = ⟨f 7, f 8, 1⟩ ∧
      sk.a11 = bval ((v.drop (Codec.encLen K * 9)).take 82) ∧
      sk.a22 = bval ((v.drop (Codec.encLen K * 9 + 82)).take 82) := by
  intro f
  unfold SecretKey.decode
  simp only [Bool.false_and, Bool.false_eq_true, if_false]
  by_cases hl : Codec.encLen K * 9 + 164 ≤ v.length
  · have := decodeFields_release (K := K) v 9 0 (by omega)
    simp only [Nat.zero_add] at this
    have s1 : slice v (Codec.encLen K * 9) 82 = some ((v.drop (Codec.encLen K * 9)).take 82) := by
      unfold slice; rw [if_pos (by omega)]
    have s2 : slice v (Codec.encLen K * 9 + 82) 82 = some ((v.drop (Codec.encLen K * 9 + 82)).take 82) := by
      unfold slice; rw [if_pos (by omega)]
    rw [this, s1, s2]
    show (match (some ((v.drop (Codec.encLen K * 9)).take 82) : Option (List UInt8)),
        (some ((v.drop (Codec.encLen K * 9 + 82)).take 82) : Option (List UInt8)), Crv.new (f 0) with
      | some a11, some a22, some E => some (⟨E, Pt.newXY (f 1) (f 2), Pt.newXY (f 3) (f 4), Pt.newXY (f 5) (f 6),
          Pt.newXY (f 7) (f 8), fromBytesLe a11, fromBytesLe a22⟩ : SecretKey K)
      | _, _, _ => none) = some sk ↔ _
    constructor
    · intro h
      split at h
      · rename_i a b E e1 e2 e
        rw [Option.some.injEq] at e1 e2 h
        subst h e1 e2
        obtain ⟨g1, a1⟩ := (crv_new_iff h2 _ _).mp e
        exact ⟨hl, g1, a1, rfl, rfl, rfl, rfl, fromBytesLe_bval _, fromBytesLe_bval _⟩
      · cases h
    · rintro ⟨-, g1, a1, p1, q1, p2, q2, n1, n2⟩
      rw [(crv_new_iff h2 _ sk.EA').mpr ⟨g1, a1⟩]
      dsimp only
      unfold Pt.newXY
      rw [← p1, ← q1, ← p2, ← q2, fromBytesLe_bval, fromBytesLe_bval, ← n1, ← n2]
  · constructor
    · intro h
      split at h
      · split at h
        · rename_i s2 _
          unfold slice at s2
          split_ifs at s2
          omega
        · cases h
      · cases h
    · intro h; exact absurd h.1 hl

/-- C89, release builds: what follows the fields does not matter, so no value has only one string. -/
theorem C89_trailing (h2 : (2 : K) ≠ 0) (v w : List UInt8) :
    (Codec.encLen K * 10 ≤ v.length →
      (TrapdoorOutput.decode false (v ++ w) : Option (TrapdoorOutput K)) = TrapdoorOutput.decode false v) ∧
    (Codec.encLen K * 9 + 164 ≤ v.length →
      (SecretKey.decode false (v ++ w) : Option (SecretKey K)) = SecretKey.decode false v) := by
  have key : ∀ a b, a + b ≤ v.length → ((v ++ w).drop a).take b = (v.drop a).take b := by
    intro a b h
    rw [List.drop_append_of_le_length (by omega), List.take_append_of_le_length (by rw [List.length_drop]; omega)]
  constructor <;> intro hl <;> refine Option.ext fun c => ?_
  · have hf : ∀ i, i < 10 → ((v ++ w).drop (Codec.encLen K * i)).take (Codec.encLen K) =
        (v.drop (Codec.encLen K * i)).take (Codec.encLen K) := fun i hi => key _ _ (by
      calc Codec.encLen K * i + Codec.encLen K = Codec.encLen K * (i + 1) := (Nat.mul_succ _ _).symm
        _ ≤ Codec.encLen K * 10 := Nat.mul_le_mul_left _ hi
        _ ≤ _ := hl)
    have e1 := C89_output_release h2 (v ++ w) c
    have e2 := C89_output_release h2 v c
    dsimp only at e1 e2
    rw [e1, e2, hf 0 (by norm_num), hf 1 (by norm_num), hf 2 (by norm_num),
      hf 3 (by norm_num), hf 4 (by norm_num), hf 5 (by norm_num), hf 6 (by norm_num), hf 7 (by norm_num),
      hf 8 (by norm_num), hf 9 (by norm_num), List.length_append]
    exact and_congr_left' ⟨fun _ => hl, fun _ => by omega⟩
  · have hf : ∀ i, i < 9 → ((v ++ w).drop (Codec.encLen K * i)).take (Codec.encLen K) =
        (v.drop (Codec.encLen K * i)).take (Codec.encLen K) := fun i hi => key _ _ (by
      calc Codec.encLen K * i + Codec.encLen K = Codec.encLen K * (i + 1) := (Nat.mul_succ _ _).symm
        _ ≤ Codec.encLen K * 9 := Nat.mul_le_mul_left _ hi
        _ ≤ _ := by omega)
    have e1 := C89_key_release h2 (v ++ w) c
    have e2 := C89_key_release h2 v c
    dsimp only at e1 e2
    rw [e1, e2, hf 0 (by norm_num), hf 1 (by norm_num), hf 2 (by norm_num),
      hf 3 (by norm_num), hf 4 (by norm_num), hf 5 (by norm_num), hf 6 (by norm_num), hf 7 (by norm_num),
      hf 8 (by norm_num), List.length_append, key (Codec.encLen K * 9) 82 (by omega),
      key (Codec.encLen K * 9 + 82) 82 (by omega)]
    exact and_congr_left' ⟨fun _ => hl, fun _ => by omega⟩

variable [LawfulCodec K]

/-- C89, debug builds: `TrapdoorOutput::decode` accepts the encodings of all tuples of two non-singular curves and four pairs
of coordinates, and nothing else.  That the points are on the curves is not checked. -/
theorem C89_output_debug (h2 : (2 : K) ≠ 0) (v : List UInt8) (c : TrapdoorOutput K) :
    TrapdoorOutput.decode true v = some c ↔ c.E1.Good ∧ c.E2.Good ∧
      (c.R1.Z = 1 ∧ c.S1.Z = 1 ∧ c.R2.Z = 1 ∧ c.S2.Z = 1) ∧ c.encode = v := by
  constructor
  · intro h
    unfold TrapdoorOutput.decode at h
    split_ifs at h with hl
    have hlen : v.length = Codec.encLen K * 10 := by simpa using hl
    split at h
    · rename_i A1 x1 y1 x2 y2 A2 x3 y3 x4 y4 hd
      obtain ⟨-, -, hf⟩ := decodeFields_some v 10 0 hd
      split at h
      · rename_i E1 E2 e1 e2
        rw [Option.some.injEq] at h
        subst h
        obtain ⟨g1, rfl⟩ := (crv_new_iff h2 _ _).mp e1
        obtain ⟨g2, rfl⟩ := (crv_new_iff h2 _ _).mp e2
        refine ⟨g1, g2, ⟨rfl, rfl, rfl, rfl⟩, ?_⟩
        have hxy : ∀ x y : K, (Pt.newXY x y).toXY = (x, y) := fun x y => by
          simp [Pt.toXY, Pt.newXY]
        rw [List.drop_zero, ← hlen, List.take_length] at hf
        rw [← hf]
        unfold TrapdoorOutput.encode
        simp only [hxy, List.map_cons, List.map_nil, List.flatten_cons, List.flatten_nil, List.append_nil, List.append_assoc]
      · cases h
    · cases h
  · rintro ⟨g1, g2, ⟨z1, z2, z3, z4⟩, rfl⟩
    have := (C52_roundtrip c g1 g2 true).2
    rwa [newXY_of_one z1, newXY_of_one z2, newXY_of_one z3, newXY_of_one z4] at this

/-- C89, debug builds: `SecretKey::decode` accepts the encodings of all tuples of a non-singular curve, four pairs of coordinates
and two numbers of at most 82 bytes, and nothing else. -/
theorem C89_key_debug (h2 : (2 : K) ≠ 0) (v : List UInt8) (sk : SecretKey K) :
    SecretKey.decode true v = some sk ↔ sk.EA'.Good ∧
      (sk.P1.Z = 1 ∧ sk.Q1.Z = 1 ∧ sk.P2.Z = 1 ∧ sk.Q2.Z = 1) ∧ sk.encode = some v := by
  constructor
  · intro h
    refine ⟨?_, ?_, C51_canonical v sk h⟩ <;>
    · unfold SecretKey.decode at h
      split_ifs at h with hl
      split at h
      · dsimp only at h
        split at h
        · rename_i E _ _ e1
          rw [Option.some.injEq] at h
          subst h
          first
            | exact ((crv_new_iff h2 _ _).mp e1).1
            | exact ⟨rfl, rfl, rfl, rfl⟩
        · cases h
      · cases h
  · rintro ⟨g, ⟨z1, z2, z3, z4⟩, h⟩
    have ha : sk.a11 < 2 ^ 656 := by
      by_contra hc
      rw [C51_long sk (Or.inl (not_lt.mp hc))] at h
      cases h
    have hb : sk.a22 < 2 ^ 656 := by
      by_contra hc
      rw [C51_long sk (Or.inr (not_lt.mp hc))] at h
      cases h
    obtain ⟨w, e, -, hd⟩ := C51_roundtrip sk g ha hb
    rw [h, Option.some.injEq] at e
    subst e
    have := hd true
    rwa [newXY_of_one z1, newXY_of_one z2, newXY_of_one z3, newXY_of_one z4] at this

/-- C89: every choice of coordinates is accepted, on or off the curves, in debug and in release builds. -/
theorem C89_no_validation (E1 E2 : Crv K) (h1 : E1.Good) (h2 : E2.Good) (x1 y1 x2 y2 x3 y3 x4 y4 : K) :
    ∃ v : List UInt8, v.length = 10 * Codec.encLen K ∧
      ∀ chk, TrapdoorOutput.decode chk v = some ⟨E1, ⟨x1, y1, 1⟩, ⟨x2, y2, 1⟩, E2, ⟨x3, y3, 1⟩, ⟨x4, y4, 1⟩⟩ := by
  let c : TrapdoorOutput K := ⟨E1, ⟨x1, y1, 1⟩, ⟨x2, y2, 1⟩, E2, ⟨x3, y3, 1⟩, ⟨x4, y4, 1⟩⟩
  refine ⟨c.encode, (C52_roundtrip c h1 h2 true).1, fun chk => ?_⟩
  have := (C52_roundtrip c h1 h2 chk).2
  rwa [newXY_of_one rfl, newXY_of_one rfl, newXY_of_one rfl, newXY_of_one rfl] at this

end

/-! Cases on the code's field. -/

theorem fq_two_ne : (2 : Fq) ≠ 0 := qE_good.two

/-- A point off its curve is accepted, also with all checks on: `(i, 1)` is not on `y² = x³ + x`. -/
example : ∃ v : List UInt8, v.length = 3240 ∧ ∃ c : TrapdoorOutput Fq, (∀ chk, TrapdoorOutput.decode chk v = some c) ∧
    c.E1.onCurve c.R1 = false := by
  obtain ⟨v, hl, hd⟩ := C89_no_validation qE qE qE_good qE_good (RootOps.zeta : Fq) 1 1 1 1 1 1 1
  refine ⟨v, ?_, _, hd, ?_⟩
  · rw [hl]
    show 10 * (2 * festaFp.encLen) = 3240
    rw [C23_length]
  · have hz := RootOps.zeta_sq (K := Fq)
    unfold Crv.onCurve Pt.toXY
    simp only [one_ne_zero, if_false, inv_one, mul_one, decide_eq_false_iff_not]
    intro h
    have : (1 : Fq) = 0 := by
      change (1 : Fq) = RootOps.zeta * (RootOps.zeta * RootOps.zeta + 0 * RootOps.zeta + 1) at h
      linear_combination h + RootOps.zeta * hz
    exact one_ne_zero this

theorem ff_ge : festaFp.p ≤ bval (List.replicate 162 255) := by
  have : decide (festaFp.p ≤ bval (List.replicate 162 255)) = true := by decide +kernel
  exact of_decide_eq_true this

theorem fq_decode_invalid (b : List UInt8) (hn : ¬ (b.length = 2 * festaFp.encLen ∧
    bval (b.take festaFp.encLen) < festaFp.p ∧ bval (b.drop festaFp.encLen) < festaFp.p)) :
    (Codec.decode b : Fq × UInt32) = (0, 0) := by
  have h := (C23_decode festa_valid b).2 hn
  exact Prod.ext (Subtype.ext h.2) h.1

theorem fq_decode_ff : (Codec.decode (List.replicate 324 255) : Fq × UInt32) = (0, 0) := by
  have hn : ¬ ((List.replicate 324 (255 : UInt8)).length = 2 * festaFp.encLen ∧
      bval ((List.replicate 324 (255 : UInt8)).take festaFp.encLen) < festaFp.p ∧
      bval ((List.replicate 324 (255 : UInt8)).drop festaFp.encLen) < festaFp.p) := by
    rintro ⟨-, h, -⟩
    rw [show festaFp.encLen = 162 by decide +kernel, List.take_replicate, min_eq_left (by norm_num)] at h
    exact absurd ff_ge (not_le.mpr h)
  exact fq_decode_invalid _ hn

theorem ff_field (n i : Nat) (h : 324 * i + 324 ≤ n) :
    ((List.replicate n (255 : UInt8)).drop (324 * i)).take 324 = List.replicate 324 255 := by
  rw [List.drop_replicate, List.take_replicate, min_eq_left (by omega)]

/-- Strings that are too short or have fields above `p` are refused in debug builds. -/
theorem C89_debug_invalid (n : Nat) (c : TrapdoorOutput Fq) :
    TrapdoorOutput.decode true (List.replicate n 255) ≠ some c := by
  intro h
  obtain ⟨-, -, -, he⟩ := (C89_output_debug fq_two_ne _ c).mp h
  have hl : n = 3240 := by
    have := congrArg List.length he
    rw [List.length_replicate] at this
    rw [← this]
    unfold TrapdoorOutput.encode
    simp only [List.length_append, LawfulCodec.len]
    show _ = 3240
    decide +kernel
  subst hl
  have h0 : (Codec.encode c.E1.A : List UInt8) = List.replicate 324 255 := by
    have hL : (Codec.encode c.E1.A : List UInt8).length = 324 := by
      rw [LawfulCodec.len]; exact C23_length
    have := congrArg (List.take 324) he
    rw [List.take_replicate, min_eq_left (by norm_num)] at this
    rw [← this]
    unfold TrapdoorOutput.encode
    simp only [List.append_assoc]
    rw [← hL, List.take_left]
  have h1 := LawfulCodec.dec c.E1.A
  rw [h0, fq_decode_ff] at h1
  have h2 : (0 : UInt32) = 0xFFFFFFFF := congrArg Prod.snd h1
  exact absurd h2 (by decide)

/-- C89: in release builds every string of at least 3240 bytes `0xFF` is accepted, and gives the curve `y² = x³ + x` and the point
`(0, 0)` in all places: the outcome of `Fq::decode` is looked at in debug builds only. -/
theorem C89_release_invalid (n : Nat) (hn : 3240 ≤ n) :
    ∃ E : Crv Fq, E.Good ∧ E.A = 0 ∧ TrapdoorOutput.decode false (List.replicate n 255) =
      some ⟨E, ⟨0, 0, 1⟩, ⟨0, 0, 1⟩, E, ⟨0, 0, 1⟩, ⟨0, 0, 1⟩⟩ := by
  refine ⟨qE, qE_good, rfl, (C89_output_release fq_two_ne _ _).mpr ?_⟩
  have hL : Codec.encLen Fq = 324 := C23_length
  have hf : ∀ i, i < 10 → (Codec.decode (((List.replicate n (255 : UInt8)).drop (Codec.encLen Fq * i)).take
      (Codec.encLen Fq)) : Fq × UInt32).1 = 0 := by
    intro i hi
    rw [hL, ff_field n i (by omega), fq_decode_ff]
  dsimp only
  rw [hf 0 (by norm_num), hf 1 (by norm_num), hf 2 (by norm_num), hf 3 (by norm_num), hf 4 (by norm_num),
    hf 5 (by norm_num), hf 6 (by norm_num), hf 7 (by norm_num), hf 8 (by norm_num), hf 9 (by norm_num)]
  exact ⟨by rw [hL, List.length_replicate]; exact hn, qE_good, qE_good, rfl, rfl, rfl, rfl, rfl, rfl⟩

/-- The case of the strings of bytes `0xFF`: a longer string gives the same value. -/
example : (TrapdoorOutput.decode false (List.replicate 3240 255 ++ [1, 2]) : Option (TrapdoorOutput Fq)) =
      TrapdoorOutput.decode false (List.replicate 3240 255) ∧
    (TrapdoorOutput.decode false (List.replicate 3240 255) : Option (TrapdoorOutput Fq)).isSome := by
  obtain ⟨E, -, -, h⟩ := C89_release_invalid 3240 le_rfl
  refine ⟨(C89_trailing fq_two_ne _ _).1 ?_, by rw [h]; rfl⟩
  rw [List.length_replicate, show Codec.encLen Fq = 324 from C23_length]

/-- A secret key that is accepted in debug builds. -/
example : ∃ v, ∃ sk : SecretKey Fq, sk.a11 = 255 ∧ SecretKey.decode true v = some sk := by
  let sk : SecretKey Fq := ⟨qE, ⟨RootOps.zeta, 0, 1⟩, ⟨0, 0, 1⟩, ⟨0, 0, 1⟩, ⟨-RootOps.zeta, 0, 1⟩, 255, 3⟩
  have h255 : (255 : Nat) < 2 ^ 656 := by decide +kernel
  obtain ⟨v, h1, -, -⟩ := C51_roundtrip sk qE_good h255 (by show (3 : Nat) < 2 ^ 656; decide +kernel)
  exact ⟨v, sk, rfl, (C89_key_debug fq_two_ne v sk).mpr ⟨qE_good, ⟨rfl, rfl, rfl, rfl⟩, h1⟩⟩

end Festa
