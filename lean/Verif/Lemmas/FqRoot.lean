import Verif.Model.EC
import Verif.Props.Fp2
/-! The code's square root and quadratic symbol on `Fq` meet the contract used by the curve code. -/
namespace Festa
namespace Fq

theorem isSquare_val (a : Fq) : IsSquare a ↔ IsSquare a.val := by
  constructor
  · rintro ⟨r, rfl⟩
    exact ⟨r.val, val_mul r r⟩
  · rintro ⟨r, hr⟩
    obtain ⟨b, hb⟩ := exists_rep2 festa_valid r
    let B : Fq := ⟨b, hb.reduced⟩
    refine ⟨B, val_inj ?_⟩
    rw [val_mul, hr, val_eq (a := B) hb]

/-- `sqrt`, fp2_gen.rs:342-420, on reduced pairs. -/
def sqrtCode (a : Fq) : Fq × Bool :=
  (⟨(fp2Sqrt festaFp a.1).1, by
    by_cases h : IsSquare a.val
    · obtain ⟨-, s, hs, -⟩ := (sqrt2_spec festa_valid div_valid festa_roots a.rep).1 h
      exact hs.reduced
    · exact ((sqrt2_spec festa_valid div_valid festa_roots a.rep).2 h).2.reduced⟩,
   decide ((fp2Sqrt festaFp a.1).2 = 0xFFFFFFFF))

/-- `ZETA`, fp2_gen.rs:59-62. -/
def zetaCode : Fq := ⟨fp2Zeta festaFp, by
  obtain ⟨i, hi, -⟩ := (C18_constants (P := festaFp) festa_valid).2.2.2.2.2.2
  exact hi.reduced⟩

/-- `legendre`, fp2_gen.rs:423-428, as a signed number. -/
def legendreCode (a : Fq) : Int := (fp2Legendre festaFp a.1).toBitVec.toInt

theorem legendre_cases (a : Fq) :
    (a.val = 0 ∧ a.legendreCode = 0) ∨ (a.val ≠ 0 ∧ IsSquare a.val ∧ a.legendreCode = 1) ∨
    (¬ IsSquare a.val ∧ a.legendreCode = -1) := by
  obtain ⟨h0, h1, h2⟩ := C15_legendre_fp2 festa_valid festa_roots a.rep
  unfold legendreCode
  by_cases hs : IsSquare a.val
  · by_cases hz : a.val = 0
    · left; rw [h0.mpr hz]; exact ⟨hz, rfl⟩
    · right; left; rw [h1.mpr ⟨hz, hs⟩]; exact ⟨hz, hs, rfl⟩
  · right; right; rw [h2.mpr hs]; exact ⟨hs, by decide⟩

theorem val_eq_zero (a : Fq) : a.val = 0 ↔ a = 0 :=
  ⟨fun h => val_inj (h.trans val_zero.symm), fun h => h ▸ val_zero⟩

instance : RootOps Fq where
  sqrt := sqrtCode
  legendre := legendreCode
  zeta := zetaCode
  sqrt_sq a h := by
    rw [isSquare_val] at h
    obtain ⟨h1, s, hs, h2, -⟩ := (sqrt2_spec festa_valid div_valid festa_roots a.rep).1 h
    refine ⟨decide_eq_true h1, val_inj ?_⟩
    rw [val_mul, val_eq (a := (sqrtCode a).1) hs, h2]
  sqrt_nonsq a h := by
    rw [isSquare_val] at h
    obtain ⟨h1, h2⟩ := (sqrt2_spec festa_valid div_valid festa_roots a.rep).2 h
    refine Prod.ext (val_inj ?_) ?_
    · rw [val_eq (a := (sqrtCode a).1) h2, val_zero]
    · simp [sqrtCode, h1]
  legendre_zero a := by
    rw [← val_eq_zero]
    rcases legendre_cases a with ⟨h, e⟩ | ⟨h, hs, e⟩ | ⟨h, e⟩
    · simp [h, e]
    · simp [h, e]
    · have : a.val ≠ 0 := fun h0 => h (h0 ▸ ⟨0, by simp⟩)
      simp [this, e]
  legendre_one a := by
    rw [ne_eq, ← val_eq_zero, isSquare_val]
    rcases legendre_cases a with ⟨h, e⟩ | ⟨h, hs, e⟩ | ⟨h, e⟩
    · simp [h, e]
    · simp [h, hs, e]
    · simp [h, e]
  legendre_neg a := by
    rw [isSquare_val]
    rcases legendre_cases a with ⟨h, e⟩ | ⟨h, hs, e⟩ | ⟨h, e⟩
    · have : IsSquare a.val := h ▸ ⟨0, by simp⟩
      simp [this, e]
    · simp [hs, e]
    · simp [h, e]
  zeta_sq := by
    obtain ⟨i, hi, -, h2⟩ := (C18_constants (P := festaFp) festa_valid).2.2.2.2.2.2
    apply val_inj
    rw [val_mul, val_neg, val_one, val_eq (a := zetaCode) hi, h2]
  two_ne := by
    intro h
    have e : (1 + 1 : Fq) = 2 := one_add_one_eq_two
    have h' : (1 + 1 : Fq).val = 0 := by rw [e, h, val_zero]
    rw [val_add, val_one] at h'
    have := congrArg QuadraticAlgebra.re h'
    have hf := Fact.mk festa_prime
    apply two_ne_zero' festa_roots
    rw [← one_add_one_eq_two]
    simpa [one_re] using this

end Fq
end Festa
