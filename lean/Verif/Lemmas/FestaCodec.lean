import Verif.Lemmas.FqCodec
import Verif.Lemmas.FpPow
import Verif.Spec.EC
/-! Lemmas on the encodings of keys and trapdoor outputs. -/
namespace Festa
variable {K : Type*} [Field K] [DecidableEq K] [Codec K] [LawfulCodec K]

omit [Field K] [DecidableEq K] in
theorem flatten_length (xs : List K) :
    (xs.map Codec.encode).flatten.length = Codec.encLen K * xs.length := by
  induction xs with
  | nil => simp
  | cons x xs ih =>
    rw [List.map_cons, List.flatten_cons, List.length_append, ih, LawfulCodec.len, List.length_cons]
    ring

theorem slice_mid (pre b suf : List UInt8) : slice (pre ++ b ++ suf) pre.length b.length = some b := by
  unfold slice
  rw [if_pos (by simp), List.append_assoc, List.drop_left, List.take_left]

theorem slice_eq {v b : List UInt8} {off len : Nat} (h : slice v off len = some b) :
    off + len ≤ v.length ∧ b = (v.drop off).take len ∧ b.length = len := by
  unfold slice at h
  split_ifs at h with hl
  rw [Option.some.injEq] at h
  subst h
  refine ⟨hl, rfl, ?_⟩
  rw [List.length_take, List.length_drop]
  omega

omit [Field K] [DecidableEq K] in
theorem decodeFields_encode (chk : Bool) (xs : List K) (pre suf : List UInt8) :
    decodeFields chk (pre ++ (xs.map Codec.encode).flatten ++ suf) xs.length pre.length = some xs := by
  induction xs generalizing pre with
  | nil => rfl
  | cons x xs ih =>
    rw [List.length_cons]
    unfold decodeFields
    have hs : slice (pre ++ ((x :: xs).map Codec.encode).flatten ++ suf) pre.length (Codec.encLen K) =
        some (Codec.encode x) := by
      have := slice_mid pre (Codec.encode x) ((xs.map Codec.encode).flatten ++ suf)
      rw [LawfulCodec.len] at this
      rw [← this, List.map_cons, List.flatten_cons]
      simp only [List.append_assoc]
    rw [hs]
    dsimp only
    rw [LawfulCodec.dec]
    have h0 : (chk && (0xFFFFFFFF : UInt32) != 0xFFFFFFFF) = false := by cases chk <;> rfl
    simp only [h0, Bool.false_eq_true, if_false]
    have := ih (pre ++ Codec.encode x)
    rw [List.length_append, LawfulCodec.len] at this
    rw [List.map_cons, List.flatten_cons, ← List.append_assoc pre, this]

omit [Field K] [DecidableEq K] in
theorem decodeFields_some (v : List UInt8) (n off : Nat) {xs : List K}
    (h : decodeFields true v n off = some xs) :
    (off ≤ v.length → off + Codec.encLen K * n ≤ v.length) ∧ xs.length = n ∧
      (xs.map Codec.encode).flatten = (v.drop off).take (Codec.encLen K * n) := by
  induction n generalizing off xs with
  | zero =>
    cases h
    refine ⟨fun h => by omega, rfl, by simp⟩
  | succ n ih =>
    unfold decodeFields at h
    split at h
    · exact absurd h (by simp)
    · rename_i s hs
      obtain ⟨h1, h2, h3⟩ := slice_eq hs
      dsimp only at h
      split_ifs at h with hc
      split at h
      · exact absurd h (by simp)
      · rename_i rest hr
        rw [Option.some.injEq] at h
        subst h
        obtain ⟨i1, i2, i3⟩ := ih _ hr
        have hok : (Codec.decode s : K × UInt32).2 = 0xFFFFFFFF := by
          simpa using hc
        refine ⟨fun _ => ?_, by rw [List.length_cons, i2], ?_⟩
        · have := i1 h1
          rw [Nat.mul_succ]; omega
        · rw [List.map_cons, List.flatten_cons, LawfulCodec.enc _ hok, i3, h2, ← List.drop_drop,
            Nat.mul_succ, Nat.add_comm _ (Codec.encLen K), List.take_add]

theorem fromBytesLe_bval (b : List UInt8) : fromBytesLe b = bval b := by
  induction b with
  | nil => rfl
  | cons b bs ih => rw [fromBytesLe, bval, ih]

theorem toBytesLe_length (n : Nat) (k : Nat) (hk : 1 ≤ k) :
    (toBytesLe n).length ≤ k ↔ n < 256 ^ k := by
  induction n using Nat.strong_induction_on generalizing k with
  | _ n ih =>
    unfold toBytesLe
    split_ifs with h
    · rw [List.length_singleton]
      have : 256 ^ 1 ≤ 256 ^ k := Nat.pow_le_pow_right (by norm_num) hk
      constructor
      · intro _; omega
      · intro _; exact hk
    · rw [List.length_cons]
      obtain ⟨j, rfl⟩ : ∃ j, k = j + 1 := ⟨k - 1, by omega⟩
      rcases Nat.eq_zero_or_pos j with rfl | hj
      · constructor
        · intro h'
          have : 1 ≤ (toBytesLe (n / 256)).length := by
            unfold toBytesLe
            split_ifs <;> simp
          omega
        · intro h'; omega
      · rw [Nat.add_le_add_iff_right, ih (n / 256) (by omega) j hj, pow_succ,
          Nat.div_lt_iff_lt_mul (by norm_num)]

theorem encodeNat_spec (a : Nat) :
    (a < 2 ^ 656 → ∃ b, encodeNat a = some b ∧ b.length = 82 ∧ fromBytesLe b = a) ∧
    (2 ^ 656 ≤ a → encodeNat a = none) := by
  have h := toBytesLe_length a 82 (by norm_num)
  rw [show (256 : Nat) ^ 82 = 2 ^ 656 by rw [show (256 : Nat) = 2 ^ 8 by norm_num, ← pow_mul]] at h
  unfold encodeNat
  dsimp only
  refine ⟨fun ha => ⟨_, if_pos (h.mpr ha), ?_, ?_⟩, fun ha => if_neg (fun hc => ?_)⟩
  · rw [List.length_append, List.length_replicate]
    have := h.mpr ha
    omega
  · rw [fromBytesLe_bval, bval_append, bval_replicate_zero, (toBytesLe_spec a).1]
    ring
  · exact absurd (h.mp hc) (by omega)

theorem encodeNat_fromBytes {b : List UInt8} (hb : b.length = 82) : encodeNat (fromBytesLe b) = some b := by
  have hlt : fromBytesLe b < 2 ^ 656 := by
    rw [fromBytesLe_bval]
    have := bval_lt b
    rw [hb] at this
    calc bval b < 256 ^ 82 := this
      _ = 2 ^ 656 := by rw [show (256 : Nat) = 2 ^ 8 by norm_num, ← pow_mul]
  obtain ⟨b', h1, h2, h3⟩ := (encodeNat_spec (fromBytesLe b)).1 hlt
  rw [h1, Option.some.injEq]
  refine bval_inj (h2.trans hb.symm) ?_
  rw [← fromBytesLe_bval, ← fromBytesLe_bval, h3]

omit [Codec K] [LawfulCodec K] in
theorem Crv.Good.new_eq {E : Crv K} (hE : E.Good) : Crv.new E.A = some E := by
  have h4 : (4 : K) ≠ 0 := by
    rw [show (4 : K) = 2 * 2 by norm_num]; exact mul_ne_zero hE.two hE.two
  have h1 : E.A ≠ 2 := fun h => hE.disc (by rw [h]; norm_num)
  have h2 : E.A + 2 ≠ 0 := fun h => hE.disc (by linear_combination (E.A - 2) * h)
  unfold Crv.new
  rw [if_neg h1, if_neg h2, Option.some.injEq]
  have : (E.A + 2) / 2 / 2 = E.A24 := by
    have h2' := hE.two
    field_simp
    linear_combination -hE.a24
  rw [this]

end Festa
