import Verif.Lemmas.PairingTest
import Verif.Props.OrderTest
/-!
The searches for points of given order and for torsion bases.
-/
namespace Festa
open WeierstrassCurve.Affine
variable {K : Type*} [Field K] [DecidableEq K]

/-- The scalar applied by `clear_cofactor`. -/
def cofScalar (fs : Factored) (ep : Nat) : Nat :=
  2 ^ ep * ((ofSlice BASIS_ORDER / fs.value) >>> ep)

theorem clearCofactor_spec {E : Crv K} (hE : E.Good) {x : Pt K} {X : MPoint E.A} (hx : PRep x X)
    (k ep : Nat) : ∃ T, clearCofactor E x k ep = some T ∧ PRep T ((2 ^ ep * (k >>> ep)) • X) := by
  obtain ⟨T, h1, h2⟩ := C27_mul_big hE (prep_doubleIter hE hx ep) (k >>> ep)
  refine ⟨T, h1, ?_⟩
  rw [mul_comm, mul_nsmul']
  exact h2

theorem torsionCandidate_spec {E : Crv K} (hE : E.Good) {x : Pt K} {X : MPoint E.A} (hx : PRep x X)
    (fs : Factored) (hne : fs ≠ []) (he : ∀ p ∈ fs, p.2 ≠ 0) (hl : ∀ p ∈ fs, p.1 ≠ 0) (k ep : Nat) :
    ∃ T r, PRep T ((2 ^ ep * (k >>> ep)) • X) ∧ torsionCandidate E x k fs ep = some r ∧
      ((r = some T ∧ ∀ p ∈ fs, (fs.value / p.1.toNat) • ((2 ^ ep * (k >>> ep)) • X) ≠ 0) ∨
       (r = none ∧ ¬ ∀ p ∈ fs, (fs.value / p.1.toNat) • ((2 ^ ep * (k >>> ep)) • X) ≠ 0)) := by
  obtain ⟨T, h1, h2⟩ := clearCofactor_spec hE hx k ep
  obtain ⟨b, h3, h4⟩ := C40_point_test hE h2 fs hne he hl
  rw [← value_eq] at h4
  unfold torsionCandidate
  rw [h1]
  dsimp only
  by_cases hi : T.isInf = true
  · rw [if_pos hi]
    refine ⟨T, none, h2, rfl, Or.inr ⟨rfl, fun h => ?_⟩⟩
    obtain ⟨p, hp⟩ := List.exists_mem_of_ne_nil _ hne
    apply h p hp
    rw [(isInf_false h2).mp hi, nsmul_zero]
  · rw [if_neg hi, h3]
    rcases b with _ | _
    · refine ⟨T, none, h2, rfl, Or.inr ⟨rfl, fun h => ?_⟩⟩
      have := h4.mpr h
      cases this
    · exact ⟨T, some T, h2, rfl, Or.inl ⟨rfl, h4.mp rfl⟩⟩

section
variable [RootOps K]

theorem next_prep {E : Crv K} (hE : E.Good) {x : K} {P : Pt K} {it : CrvIter K}
    (h : CrvIter.next ⟨E.A, x⟩ = (some P, it)) : (∃ X : MPoint E.A, PRep P X) ∧ ∃ x', it = ⟨E.A, x'⟩ := by
  obtain ⟨k, -, -, -, h1, -, h2⟩ := (C33_next hE x).1 P (by rw [h])
  rw [h] at h2
  exact ⟨((C28_on_curve hE _).1).mp h1, _, h2⟩

theorem pointOrderLoop_spec {E : Crv K} (hE : E.Good) (fs : Factored) (hne : fs ≠ [])
    (he : ∀ p ∈ fs, p.2 ≠ 0) (hl : ∀ p ∈ fs, p.1 ≠ 0) (k ep : Nat) (fuel : Nat) (x : K) {T : Pt K}
    (h : pointOrderLoop E k fs ep fuel ⟨E.A, x⟩ = some T) :
    T = Pt.inf ∨ ∃ X : MPoint E.A, PRep T ((2 ^ ep * (k >>> ep)) • X) ∧
      ∀ p ∈ fs, (fs.value / p.1.toNat) • ((2 ^ ep * (k >>> ep)) • X) ≠ 0 := by
  induction fuel generalizing x with
  | zero => cases h
  | succ fuel ih =>
    unfold pointOrderLoop at h
    rcases hn : CrvIter.next ⟨E.A, x⟩ with ⟨_ | P, it⟩
    · rw [hn] at h
      cases h
      exact Or.inl rfl
    · rw [hn] at h
      obtain ⟨⟨X, hX⟩, x', rfl⟩ := next_prep hE hn
      obtain ⟨T', r, h1, h2, h3⟩ := torsionCandidate_spec hE hX fs hne he hl k ep
      dsimp only at h
      rw [h2] at h
      rcases h3 with ⟨rfl, h3⟩ | ⟨rfl, h3⟩
      · cases h
        exact Or.inr ⟨X, h1, h3⟩
      · exact ih x' h

/-- If the first search gives up, so does the second one. -/
theorem basisLoop_inf {E : Crv K} (hE : E.Good) (chk : Bool) (P : Pt K) (fs : Factored) (hne : fs ≠ [])
    (he : ∀ p ∈ fs, p.2 ≠ 0) (hl : ∀ p ∈ fs, p.1 ≠ 0) (k ep : Nat) (fuel : Nat) (x : K)
    (h : pointOrderLoop E k fs ep fuel ⟨E.A, x⟩ = some Pt.inf) {R : Pt K × Pt K}
    (h' : basisLoop chk E P k fs ep fuel ⟨E.A, x⟩ = some R) : R = (Pt.inf, Pt.inf) := by
  induction fuel generalizing x with
  | zero => cases h
  | succ fuel ih =>
    unfold pointOrderLoop at h
    unfold basisLoop at h'
    rcases hn : CrvIter.next ⟨E.A, x⟩ with ⟨_ | X, it⟩
    · rw [hn] at h'
      cases h'
      rfl
    · rw [hn] at h h'
      obtain ⟨⟨X', hX⟩, x', rfl⟩ := next_prep hE hn
      dsimp only at h h'
      obtain ⟨T, h1, h2⟩ := clearCofactor_spec hE hX k ep
      obtain ⟨b, h3, h4⟩ := C40_point_test hE h2 fs hne he hl
      unfold torsionCandidate at h
      rw [h1] at h
      dsimp only at h
      unfold basisCandidate at h'
      rw [h1] at h'
      dsimp only at h'
      by_cases hi : T.isInf = true
      · rw [if_pos hi] at h
        rw [if_pos (by rw [hi, Bool.or_true])] at h'
        exact ih x' h h'
      · rw [if_neg hi, h3] at h
        rcases b with _ | _
        · dsimp only at h
          have : basisLoop chk E P k fs ep fuel ⟨E.A, x'⟩ = some R := by
            rw [← h']
            by_cases hq : (P.equals T || T.isInf) = true
            · rw [if_pos hq]
            · rw [if_neg hq]
              obtain ⟨T2, e1, e2⟩ := C27_mul_big hE h2 fs.value
              rw [e1]
              dsimp only
              by_cases hz : (!T2.isInf) = true
              · rw [if_pos hz]
              · rw [if_neg hz, h3]
          exact ih x' h this
        · dsimp only at h
          simp only [Option.some.injEq] at h
          rw [h] at hi
          exact absurd (by simp [Pt.isInf, Pt.inf]) hi

theorem basisLoop_spec {E : Crv K} (hE : E.Good) (chk : Bool) {P : Pt K} (fs : Factored) (hne : fs ≠ [])
    (hd : fs.Distinct) (he : ∀ p ∈ fs, p.2 ≠ 0) (k ep : Nat) (fuel : Nat) (x : K) {R : Pt K × Pt K}
    (h : basisLoop chk E P k fs ep fuel ⟨E.A, x⟩ = some R) :
    R = (Pt.inf, Pt.inf) ∨ (R.1 = P ∧ P.equals R.2 = false ∧ ∃ X : MPoint E.A,
      PRep R.2 ((2 ^ ep * (k >>> ep)) • X) ∧
      addOrderOf ((2 ^ ep * (k >>> ep)) • X) = fs.value ∧
      ∃ w, weilPairing chk E P R.2 fs.value = some w ∧
        ∀ p ∈ fs, w ^ (fs.value / p.1.toNat) ≠ 1) := by
  have hl : ∀ p ∈ fs, p.1 ≠ 0 := fun p hp h => (hd.1 p hp).ne_zero (by rw [h]; rfl)
  induction fuel generalizing x with
  | zero => cases h
  | succ fuel ih =>
    unfold basisLoop at h
    rcases hn : CrvIter.next ⟨E.A, x⟩ with ⟨_ | X, it⟩
    · rw [hn] at h
      cases h
      exact Or.inl rfl
    · rw [hn] at h
      obtain ⟨⟨X', hX⟩, x', rfl⟩ := next_prep hE hn
      dsimp only at h
      rcases hc : basisCandidate chk E P X k fs ep with _ | _ | Q
      · rw [hc] at h; cases h
      · rw [hc] at h; exact ih x' h
      · rw [hc] at h
        cases h
        right
        obtain ⟨T, h1, h2⟩ := clearCofactor_spec hE hX k ep
        unfold basisCandidate at hc
        rw [h1] at hc
        dsimp only at hc
        split at hc
        · cases hc
        · rename_i hq
          obtain ⟨T2, e1, e2⟩ := C27_mul_big hE h2 fs.value
          rw [e1] at hc
          dsimp only at hc
          split at hc
          · cases hc
          · rename_i hz
            have hz' : fs.value • ((2 ^ ep * (k >>> ep)) • X') = 0 := by
              apply (isInf_false e2).mp
              simpa using hz
            have ht := C40_point_order_partial hE h2 fs hne hd.1 hd.2 he (by rw [← value_eq]; exact hz')
            rw [← value_eq] at ht
            rw [ht] at hc
            by_cases ho : addOrderOf ((2 ^ ep * (k >>> ep)) • X') = fs.value
            · rw [ho] at hc
              simp only [decide_true] at hc
              split at hc
              · cases hc
              · rename_i w hw
                obtain ⟨b, t1, t2⟩ := C40_field_test w fs hne he hl
                rw [t1] at hc
                rw [← value_eq] at t2
                rcases b with _ | _
                · cases hc
                · cases hc
                  refine ⟨rfl, ?_, X', h2, ho, w, hw, t2.mp rfl⟩
                  rw [Bool.not_eq_true, Bool.or_eq_false_iff] at hq
                  exact hq.1
            · simp only [ho, decide_false] at hc
              cases hc

end
end Festa
