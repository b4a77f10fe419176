import Verif.Lemmas.PairingCode
/-!
The degenerate values of the pairing code: signs, self-pairings, and the discrete logarithm of `-1`.
-/
namespace Festa
variable {K : Type*} [Field K] [DecidableEq K]

theorem tate_ne_zero {chk : Bool} {E : Crv K} {P Q : Pt K} {n : Nat} {f : K}
    (h : tatePairing chk E P Q n = some f) : f ≠ 0 := by
  unfold tatePairing at h
  split at h
  · cases h
  · split at h
    · cases h
    · split at h
      · cases h
      · split at h
        · cases h; exact one_ne_zero
        · rename_i h0
          cases h; exact h0

theorem evalLine_release (E : Crv K) (P Q R : Pt K) : ∃ l, evalLine false E P Q R = some l := by
  unfold evalLine
  simp only [Bool.false_and, Bool.false_eq_true, if_false]
  split_ifs <;> exact ⟨_, rfl⟩

theorem millerStep_release (E : Crv K) (f : K) (V W S Q : Pt K) :
    ∃ g, millerStep false E f V W S Q = some g := by
  unfold millerStep
  obtain ⟨l, hl⟩ := evalLine_release E V W Q
  obtain ⟨v, hv⟩ := evalLine_release E S S.neg Q
  rw [hl, hv]
  dsimp only
  split_ifs <;> exact ⟨_, rfl⟩

theorem millerLoop_release (E : Crv K) (P Q : Pt K) (n t : Nat) (f : K) (V : Pt K) :
    ∃ r, millerLoop false E P Q n t f V = some r := by
  induction t generalizing f V with
  | zero => exact ⟨_, rfl⟩
  | succ t ih =>
    unfold millerLoop
    dsimp only
    obtain ⟨g, hg⟩ := millerStep_release E (f * f) V V (E.double V) Q
    rw [hg]
    dsimp only
    split_ifs
    · obtain ⟨g', hg'⟩ := millerStep_release E g (E.double V) P (E.add (E.double V) P) Q
      rw [hg']
      exact ih _ _
    · exact ih _ _

theorem tate_release (E : Crv K) (P Q : Pt K) (n : Nat) (hn : n ≠ 0) :
    ∃ f, tatePairing false E P Q n = some f := by
  unfold tatePairing
  rw [if_neg hn]
  obtain ⟨⟨f, V⟩, h⟩ := millerLoop_release E P Q n (Nat.log2 n) 1 P
  rw [h]
  simp only [Bool.false_and, Bool.false_eq_true, if_false]
  split_ifs <;> exact ⟨_, rfl⟩

theorem evalLine_self {chk : Bool} {E : Crv K} {P : Pt K} {l : K} (hz : P.Z ≠ 0)
    (h : evalLine chk E P P P = some l) : l = 0 := by
  have he : P.equals P = true := by simp [Pt.equals]
  unfold evalLine at h
  dsimp only at h
  split at h
  · cases h
  · have hx : P.toXY.1 = P.X / P.Z := by simp [Pt.toXY, div_eq_mul_inv]
    have hy : P.toXY.2 = P.Y / P.Z := by simp [Pt.toXY, div_eq_mul_inv]
    rw [hx, hy] at h
    split at h
    · cases h; field_simp; ring
    · simp only [Option.some.injEq] at h
      rw [← h]
      generalize (3 * (P.X / P.Z * (P.X / P.Z)) + 2 * (E.A * (P.X / P.Z)) + 1) / (2 * (P.Y / P.Z)) = m
      field_simp; ring

theorem millerStep_zero {chk : Bool} {E : Crv K} {V W S Q : Pt K} {g : K}
    (h : millerStep chk E 0 V W S Q = some g) : g = 0 := by
  unfold millerStep at h
  split at h
  · cases h
  · split at h
    · cases h; simp
    · split at h
      · cases h
      · cases h; simp

theorem millerLoop_zero {chk : Bool} {E : Crv K} {P Q : Pt K} {n t : Nat} {V : Pt K} {r : K × Pt K}
    (h : millerLoop chk E P Q n t 0 V = some r) : r.1 = 0 := by
  induction t generalizing V with
  | zero => unfold millerLoop at h; cases h; rfl
  | succ t ih =>
    unfold millerLoop at h
    dsimp only at h
    rw [zero_mul] at h
    split at h
    · cases h
    · rename_i g hg
      have g0 := millerStep_zero hg
      subst g0
      split at h
      · split at h
        · cases h
        · rename_i g' hg'
          have g0 := millerStep_zero hg'
          subst g0
          exact ih h
      · exact ih h

theorem millerStep_self {chk : Bool} {E : Crv K} {P S : Pt K} {f g : K} (hS : S = E.double P)
    (h : millerStep chk E f P P S P = some g) : g = 0 := by
  by_cases hz : P.Z = 0
  · have hd : S.isInf = true := by
      rw [hS]; unfold Pt.isInf Crv.double; simp [hz]
    unfold millerStep at h
    split at h
    · cases h
    · rw [if_pos hd] at h
      cases h
      simp [hz]
  · unfold millerStep at h
    split at h
    · cases h
    · rename_i l hl
      have l0 := evalLine_self hz hl
      subst l0
      split at h
      · cases h; simp
      · split at h
        · cases h
        · cases h; simp

/-- The Miller value of a point at itself is zero. -/
theorem tate_self {chk : Bool} {E : Crv K} {P : Pt K} {n : Nat} {f : K}
    (h : tatePairing chk E P P n = some f) : f = 1 := by
  unfold tatePairing at h
  split at h
  · cases h
  rename_i hn
  split at h
  · cases h
  rename_i f' V hm
  have hf : f' = 0 ∨ f' = 1 := by
    rcases hl : Nat.log2 n with _ | t
    · rw [hl] at hm
      unfold millerLoop at hm
      simp only [Option.some.injEq, Prod.mk.injEq] at hm
      exact Or.inr hm.1.symm
    · left
      rw [hl] at hm
      unfold millerLoop at hm
      dsimp only at hm
      split at hm
      · cases hm
      · rename_i g hg
        have g0 := millerStep_self rfl hg
        subst g0
        split at hm
        · split at hm
          · cases hm
          · rename_i g' hg'
            have g0 := millerStep_zero hg'
            subst g0
            exact millerLoop_zero hm
        · exact millerLoop_zero hm
  split at h
  · cases h
  · split at h
    · cases h; rfl
    · rename_i h0
      cases h
      exact hf.resolve_left h0

theorem weil_self {chk : Bool} {E : Crv K} {P : Pt K} {n : Nat} {w : K}
    (h : weilPairing chk E P P n = some w) : w = (-1) ^ n := by
  unfold weilPairing at h
  split at h
  · rename_i x y hx hy
    have x1 := tate_self hx
    have y1 := tate_self hy
    subst x1; subst y1
    rw [Nat.testBit_zero] at h
    rcases Nat.mod_two_eq_zero_or_one n with hn | hn
    · rw [hn] at h
      simp only [zero_ne_one, decide_false, Bool.false_eq_true, if_false, Option.some.injEq] at h
      rw [← h, (Nat.even_iff.mpr hn).neg_one_pow, div_one]
    · rw [hn] at h
      simp only [decide_true, if_true, Option.some.injEq] at h
      rw [← h, (Nat.odd_iff.mpr hn).neg_one_pow, div_one]
  · cases h

theorem phDlp_neg_one {chk : Bool} {fs : Factored} (h : fs.Ok chk) (hne : fs ≠ [])
    (hodd : ∀ p ∈ fs, p.1.toNat % 2 = 1) (h2 : (2 : K) ≠ 0) (alpha : K)
    (hord : alpha ^ fs.value = 1) : phDlp chk (-1) alpha fs = none := by
  obtain ⟨hd, he, hc⟩ := h
  rcases fs with _ | ⟨⟨l, e⟩, fs⟩
  · exact absurd rfl hne
  have hl : Nat.Prime l.toNat := hd.1 _ List.mem_cons_self
  have ho : l.toNat % 2 = 1 := hodd _ List.mem_cons_self
  have he0 : e ≠ 0 := he _ List.mem_cons_self
  have hl0 : l ≠ 0 := fun h => hl.ne_zero (by rw [h]; rfl)
  have hnn : (-1 : K) ≠ 1 := by
    intro h; apply h2; linear_combination -h
  have hmem : ((l, e) : UInt32 × UInt32) ∈ (l, e) :: fs := List.mem_cons_self
  have hv := value_eq_cof hd hmem
  have hvodd : Odd (Factored.value ((l, e) :: fs)) := by
    rw [value_eq]
    refine List.prod_induction Odd (fun a b => Odd.mul) odd_one ?_
    intro x hx
    obtain ⟨p, hp, rfl⟩ := List.mem_map.mp hx
    exact (Nat.odd_iff.mpr (hodd p hp)).pow
  have hcof : Odd (crtCofactor ((l, e) :: fs) l) := by
    rw [hv] at hvodd
    exact (Nat.odd_mul.mp hvodd).1
  obtain ⟨e', he'⟩ : ∃ e', e.toNat = e' + 1 :=
    Nat.exists_eq_succ_of_ne_zero (fun h => he0 (UInt32.toNat_inj.mp h))
  have hlodd : Odd l.toNat := Nat.odd_iff.mpr ho
  have key : phDlpPower chk (cofPow (-1 : K) l ((l, e) :: fs)) (cofPow alpha l ((l, e) :: fs)) l e =
      none := by
    rw [cofPow_eq, cofPow_eq, hcof.neg_one_pow]
    unfold phDlpPower
    dsimp only
    rw [if_neg he0, powIter_eq]
    split
    · rfl
    · have hg : (alpha ^ crtCofactor ((l, e) :: fs) l) ^ l.toNat ^ (e.toNat - 1) =
          alpha ^ (crtCofactor ((l, e) :: fs) l * l.toNat ^ e') := by
        rw [← pow_mul, he', Nat.add_sub_cancel]
      have hgl : (alpha ^ (crtCofactor ((l, e) :: fs) l * l.toNat ^ e')) ^ l.toNat = 1 := by
        rw [← pow_mul, mul_assoc, ← pow_succ, ← he', ← hv, hord]
      rw [hg, he']
      unfold phLoop
      dsimp only
      rw [powIter_eq, pow_zero, inv_one, mul_one, hlodd.pow.neg_one_pow]
      split
      · rfl
      · rw [(bsgs_spec chk (-1) _ l hl0 (fun h => hc h _ hmem) hgl).2]
        intro k hk
        apply hnn
        have := congrArg (fun x => x ^ l.toNat) hk
        rw [hlodd.neg_one_pow, ← pow_mul, mul_comm k, pow_mul, hgl, one_pow] at this
        exact this
  unfold phDlp phDlpLoop
  rw [key]

end Festa
