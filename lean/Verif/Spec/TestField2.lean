import Verif.Spec.TestField
/-!
The field with 55697 elements with a square root by search.  The curve `y² = x³ + 6x² + x` over it has
full 59-torsion, and 59 is one of the primes of the scheme: a setting for concrete cases of the
statements on torsion bases.
-/
namespace Festa

instance fact55697 : Fact (Nat.Prime 55697) := ⟨by norm_num⟩

/-- The field with 55697 elements. -/
abbrev F557 := ZMod 55697

/-- Square root by search. -/
def sqrt557 (a : F557) : F557 × Bool :=
  match ((List.range 55697).map (fun n : Nat => (n : F557))).find? (fun r => r * r = a) with
  | some r => (r, true)
  | none => (0, false)

theorem sqrt557_sq (a : F557) (h : IsSquare a) :
    (sqrt557 a).2 = true ∧ (sqrt557 a).1 * (sqrt557 a).1 = a := by
  unfold sqrt557
  rcases hf : ((List.range 55697).map (fun n : Nat => (n : F557))).find? (fun r => r * r = a) with _ | r
  · exfalso
    obtain ⟨r, hr⟩ := h
    rw [List.find?_eq_none] at hf
    refine hf r (List.mem_map.mpr ⟨r.val, List.mem_range.mpr (ZMod.val_lt r), ZMod.natCast_zmod_val r⟩) ?_
    simp [hr]
  · have := List.find?_some hf
    simp only [decide_eq_true_eq] at this
    exact ⟨rfl, this⟩

theorem sqrt557_nonsq (a : F557) (h : ¬ IsSquare a) : sqrt557 a = (0, false) := by
  unfold sqrt557
  rcases hf : ((List.range 55697).map (fun n : Nat => (n : F557))).find? (fun r => r * r = a) with _ | r
  · rfl
  · have := List.find?_some hf
    simp only [decide_eq_true_eq] at this
    exact absurd ⟨r, this.symm⟩ h

theorem sqrt557_iff (a : F557) : (sqrt557 a).2 = true ↔ IsSquare a := by
  by_cases h : IsSquare a
  · simp [h, (sqrt557_sq a h).1]
  · simp [h, sqrt557_nonsq a h]

instance rootOps557 : RootOps F557 where
  sqrt := sqrt557
  legendre a := if a = 0 then 0 else if (sqrt557 a).2 then 1 else -1
  zeta := 236
  sqrt_sq := sqrt557_sq
  sqrt_nonsq := sqrt557_nonsq
  legendre_zero a := by
    by_cases h : a = 0
    · simp [h]
    · cases hs : (sqrt557 a).2 <;> simp [h]
  legendre_one a := by
    rw [← sqrt557_iff]
    by_cases h : a = 0
    · simp [h]
    · cases hs : (sqrt557 a).2 <;> simp [h]
  legendre_neg a := by
    rw [← sqrt557_iff]
    by_cases h : a = 0
    · subst h
      have : (sqrt557 0).2 = true := (sqrt557_iff 0).mpr ⟨0, by simp⟩
      simp [this]
    · cases hs : (sqrt557 a).2 <;> simp [h]
  zeta_sq := by decide +kernel
  two_ne := by decide +kernel

end Festa
