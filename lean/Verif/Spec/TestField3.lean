import Verif.Spec.TestField
/-!
The field with 257 elements with a square root by search.  The curve `y² = x³ + 78x² + x` over it has
236 points and so a cyclic group of points of order 59.
-/
namespace Festa

instance fact257 : Fact (Nat.Prime 257) := ⟨by norm_num⟩

/-- The field with 257 elements. -/
abbrev F257 := ZMod 257

/-- Square root by search. -/
def sqrt257 (a : F257) : F257 × Bool :=
  match ((List.range 257).map (fun n : Nat => (n : F257))).find? (fun r => r * r = a) with
  | some r => (r, true)
  | none => (0, false)

theorem sqrt257_sq (a : F257) (h : IsSquare a) :
    (sqrt257 a).2 = true ∧ (sqrt257 a).1 * (sqrt257 a).1 = a := by
  unfold sqrt257
  rcases hf : ((List.range 257).map (fun n : Nat => (n : F257))).find? (fun r => r * r = a) with _ | r
  · exfalso
    obtain ⟨r, hr⟩ := h
    rw [List.find?_eq_none] at hf
    refine hf r (List.mem_map.mpr ⟨r.val, List.mem_range.mpr (ZMod.val_lt r), ZMod.natCast_zmod_val r⟩) ?_
    simp [hr]
  · have := List.find?_some hf
    simp only [decide_eq_true_eq] at this
    exact ⟨rfl, this⟩

theorem sqrt257_nonsq (a : F257) (h : ¬ IsSquare a) : sqrt257 a = (0, false) := by
  unfold sqrt257
  rcases hf : ((List.range 257).map (fun n : Nat => (n : F257))).find? (fun r => r * r = a) with _ | r
  · rfl
  · have := List.find?_some hf
    simp only [decide_eq_true_eq] at this
    exact absurd ⟨r, this.symm⟩ h

theorem sqrt257_iff (a : F257) : (sqrt257 a).2 = true ↔ IsSquare a := by
  by_cases h : IsSquare a
  · simp [h, (sqrt257_sq a h).1]
  · simp [h, sqrt257_nonsq a h]

instance rootOps257 : RootOps F257 where
  sqrt := sqrt257
  legendre a := if a = 0 then 0 else if (sqrt257 a).2 then 1 else -1
  zeta := 16
  sqrt_sq := sqrt257_sq
  sqrt_nonsq := sqrt257_nonsq
  legendre_zero a := by
    by_cases h : a = 0
    · simp [h]
    · cases hs : (sqrt257 a).2 <;> simp [h]
  legendre_one a := by
    rw [← sqrt257_iff]
    by_cases h : a = 0
    · simp [h]
    · cases hs : (sqrt257 a).2 <;> simp [h]
  legendre_neg a := by
    rw [← sqrt257_iff]
    by_cases h : a = 0
    · subst h
      have : (sqrt257 0).2 = true := (sqrt257_iff 0).mpr ⟨0, by simp⟩
      simp [this]
    · cases hs : (sqrt257 a).2 <;> simp [h]
  zeta_sq := by decide +kernel
  two_ne := by decide +kernel

end Festa
