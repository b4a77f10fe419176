import Verif.Lemmas.ToyEval
import Verif.Spec.Chain
/-! The chain of the small version of the scheme meets the hypotheses of C68. -/
namespace Festa
variable {K : Type*} [Field K] [DecidableEq K]

instance (P : ThPt K) : Decidable P.NZ :=
  decidable_of_iff (P.X ≠ 0 ∧ P.Y ≠ 0 ∧ P.Z ≠ 0 ∧ P.T ≠ 0) ⟨fun ⟨a, b, c, d⟩ => ⟨a, b, c, d⟩, fun ⟨a, b, c, d⟩ => ⟨a, b, c, d⟩⟩

instance (O : ThPt K) : Decidable (ThNull O) :=
  decidable_of_iff (O.NZ ∧ O.sqTheta.NZ) ⟨fun ⟨a, b⟩ => ⟨a, b⟩, fun ⟨a, b⟩ => ⟨a, b⟩⟩

instance (O T1 T2 : ThPt K) : Decidable (Kernel8 O T1 T2) :=
  decidable_of_iff (((ThStr.new O).double T1).Y = 0 ∧ ((ThStr.new O).double T1).T = 0 ∧
      ((ThStr.new O).double T2).Z = 0 ∧ ((ThStr.new O).double T2).T = 0 ∧ T1.sqTheta.X ≠ 0 ∧ T2.sqTheta.X ≠ 0 ∧
      T2.sqTheta.Y ≠ 0)
    ⟨fun ⟨a, b, c, d, e, f, g⟩ => ⟨a, b, c, d, e, f, g⟩, fun ⟨a, b, c, d, e, f, g⟩ => ⟨a, b, c, d, e, f, g⟩⟩

instance (O : ThPt K) : Decidable (OneVanishes O) := by unfold OneVanishes; infer_instance

instance (O : ThPt K) : Decidable (NoneVanishes O) := by unfold NoneVanishes; infer_instance

instance (T1 T2 D1 D2 : ThPt K) : Decidable (LastKernel T1 T2 D1 D2) :=
  decidable_of_iff (D1.Y = 0 ∧ D1.T = 0 ∧ D2.Z = 0 ∧ D2.T = 0 ∧ T1.sqTheta.X ≠ 0 ∧ T2.sqTheta.X ≠ 0 ∧ T2.sqTheta.Y ≠ 0)
    ⟨fun ⟨a, b, c, d, e, f, g⟩ => ⟨a, b, c, d, e, f, g⟩, fun ⟨a, b, c, d, e, f, g⟩ => ⟨a, b, c, d, e, f, g⟩⟩

/-- One step of `ProdChain`, with the points it leads to. -/
def prodStep (r : Nat) (O K1 K2 T1 T2 O' K1' K2' : ThPt K) : Bool :=
  decide ((ThStr.new O).doubleIter K1 r = T1) && decide ((ThStr.new O).doubleIter K2 r = T2) &&
  decide (ThNull O) && decide (NoneVanishes O) && decide (Kernel8 O T1 T2) &&
  decide (isoNull O T1 T2 = O') && decide (isoImage O T1 T2 K1 = K1') && decide (isoImage O T1 T2 K2 = K2')

theorem prodStep_sound {r : Nat} {O K1 K2 T1 T2 O' K1' K2' : ThPt K}
    (h : prodStep (r + 2) O K1 K2 T1 T2 O' K1' K2' = true) (h' : ProdChain (r + 2) O' K1' K2') : ProdChain (r + 3) O K1 K2 := by
  simp only [prodStep, Bool.and_eq_true, decide_eq_true_eq] at h
  obtain ⟨⟨⟨⟨⟨⟨⟨rfl, rfl⟩, h1⟩, h2⟩, h3⟩, rfl⟩, rfl⟩, rfl⟩ := h
  exact ⟨h1, h2, h3, h'⟩

/-- The last two steps. -/
def prodLast (O K1 K2 T1 T2 O' K1' K2' : ThPt K) : Bool :=
  prodStep 1 O K1 K2 T1 T2 O' K1' K2' && decide (NoneVanishes O') &&
  decide (LastKernel K1' K2' (isoImage O T1 T2 T1) (isoImage O T1 T2 T2)) && decide (OneVanishes (isoNull O' K1' K2'))

theorem prodLast_sound {O K1 K2 T1 T2 O' K1' K2' : ThPt K} (h : prodLast O K1 K2 T1 T2 O' K1' K2' = true) :
    ProdChain 2 O K1 K2 := by
  simp only [prodLast, prodStep, Bool.and_eq_true, decide_eq_true_eq] at h
  obtain ⟨⟨⟨⟨⟨⟨⟨⟨⟨⟨rfl, rfl⟩, h1⟩, h2⟩, h3⟩, rfl⟩, rfl⟩, rfl⟩, h4⟩, h5⟩, h6⟩ := h
  exact ⟨h1, h2, h3, h4, h5, h6⟩

end Festa
