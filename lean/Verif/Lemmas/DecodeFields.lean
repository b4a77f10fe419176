import Verif.Lemmas.FestaCodec
/-! Lemmas on the decoding functions of festa.rs. -/
namespace Festa

section
variable {K : Type*} [Field K]

theorem newXY_of_one {P : Pt K} (h : P.Z = 1) : Pt.newXY P.toXY.1 P.toXY.2 = P := by
  obtain ⟨x, y, z⟩ := P
  dsimp only at h
  subst h
  simp [Pt.newXY, Pt.toXY]

variable [DecidableEq K]

theorem crv_new_iff (h2 : (2 : K) ≠ 0) (A : K) (E : Crv K) : Crv.new A = some E ↔ E.Good ∧ E.A = A := by
  have h4 : (4 : K) ≠ 0 := by
    rw [show (4 : K) = 2 * 2 by norm_num]; exact mul_ne_zero h2 h2
  constructor
  · intro h
    unfold Crv.new at h
    split_ifs at h with n1 n2
    rw [Option.some.injEq] at h
    subst h
    refine ⟨⟨h2, ?_, ?_⟩, rfl⟩
    · intro h
      have : (A - 2) * (A + 2) = 0 := by linear_combination h
      rcases mul_eq_zero.mp this with h | h
      · exact n1 (sub_eq_zero.mp h)
      · exact n2 h
    · show 4 * ((A + 2) / 2 / 2) = A + 2
      field_simp
      ring
  · rintro ⟨h, rfl⟩
    exact h.new_eq

end

section
variable {K : Type*} [Codec K]

theorem decodeFields_short (chk : Bool) (v : List UInt8) (n off : Nat) (h0 : off ≤ v.length)
    (h : v.length < off + Codec.encLen K * n) : (decodeFields chk v n off : Option (List K)) = none := by
  induction n generalizing off with
  | zero => rw [Nat.mul_zero] at h; omega
  | succ n ih =>
    unfold decodeFields
    by_cases hl : off + Codec.encLen K ≤ v.length
    · have hs : slice v off (Codec.encLen K) = some ((v.drop off).take (Codec.encLen K)) := by
        unfold slice; rw [if_pos hl]
      rw [hs]
      dsimp only
      rw [ih _ hl (by rw [Nat.mul_succ] at h; omega)]
      split_ifs <;> rfl
    · have hs : slice v off (Codec.encLen K) = none := by
        unfold slice; rw [if_neg hl]
      rw [hs]

theorem decodeFields_release (v : List UInt8) (n off : Nat) (h : off + Codec.encLen K * n ≤ v.length) :
    (decodeFields false v n off : Option (List K)) = some ((List.range n).map fun i =>
      (Codec.decode ((v.drop (off + Codec.encLen K * i)).take (Codec.encLen K)) : K × UInt32).1) := by
  induction n generalizing off with
  | zero => rfl
  | succ n ih =>
    unfold decodeFields
    rw [Nat.mul_succ] at h
    have hs : slice v off (Codec.encLen K) = some ((v.drop off).take (Codec.encLen K)) := by
      unfold slice; rw [if_pos (by omega)]
    rw [hs, ih _ (by omega)]
    simp only [Bool.false_and, Bool.false_eq_true, if_false, List.range_succ_eq_map, List.map_cons, List.map_map,
      Nat.mul_zero, Nat.add_zero, Option.some.injEq, List.cons.injEq, true_and]
    refine List.map_congr_left fun i _ => ?_
    show _ = (Codec.decode ((v.drop (off + Codec.encLen K * (i + 1))).take (Codec.encLen K)) : K × UInt32).1
    rw [Nat.mul_succ, show off + Codec.encLen K + Codec.encLen K * i = off + (Codec.encLen K * i + Codec.encLen K) by omega]

end
end Festa
