import Verif.Lemmas.RiemannLoop
import Mathlib.Algebra.Polynomial.Eval.Degree
import Mathlib.Algebra.Polynomial.BigOperators
/-! Degrees along the chain: one step doubles them. -/
namespace Festa
open Polynomial
variable {K : Type*} [Field K]

/-- All coordinates are polynomials of degree at most `d`. -/
structure ThPt.Deg (w : ThPt K[X]) (d : ℕ) : Prop where
  X : w.X.natDegree ≤ d
  Y : w.Y.natDegree ≤ d
  Z : w.Z.natDegree ≤ d
  T : w.T.natDegree ≤ d

/-- The values of the coordinates. -/
def ThPt.ev (w : ThPt K[X]) (x : K) : ThPt K := ⟨w.X.eval x, w.Y.eval x, w.Z.eval x, w.T.eval x⟩

/-- A map given by polynomials, homogeneous of degree `k`. -/
def PolyMap (k : ℕ) (f : ThPt K → ThPt K) : Prop :=
  ∀ (d : ℕ) (w : ThPt K[X]), w.Deg d → ∃ w' : ThPt K[X], w'.Deg (k * d) ∧ ∀ x, w'.ev x = f (w.ev x)

theorem PolyMap.comp {k l : ℕ} {f g : ThPt K → ThPt K} (hf : PolyMap k f) (hg : PolyMap l g) : PolyMap (k * l) (fun X => f (g X)) := by
  intro d w hw
  obtain ⟨v, hv, ev⟩ := hg d w hw
  obtain ⟨u, hu, eu⟩ := hf _ v hv
  exact ⟨u, by rw [mul_assoc]; exact hu, fun x => by rw [eu, ev]⟩

theorem deg_add {a b : K[X]} {d : ℕ} (ha : a.natDegree ≤ d) (hb : b.natDegree ≤ d) : (a + b).natDegree ≤ d :=
  (natDegree_add_le a b).trans (max_le ha hb)

theorem deg_sub {a b : K[X]} {d : ℕ} (ha : a.natDegree ≤ d) (hb : b.natDegree ≤ d) : (a - b).natDegree ≤ d :=
  (natDegree_sub_le a b).trans (max_le ha hb)

theorem deg_mul {a b : K[X]} {d e : ℕ} (ha : a.natDegree ≤ d) (hb : b.natDegree ≤ e) : (a * b).natDegree ≤ d + e :=
  natDegree_mul_le.trans (Nat.add_le_add ha hb)

theorem deg_sq {a : K[X]} {d : ℕ} (ha : a.natDegree ≤ d) : (a * a).natDegree ≤ 2 * d := by
  rw [two_mul]; exact deg_mul ha ha

theorem deg_C {a : K[X]} {c : K} {d : ℕ} (ha : a.natDegree ≤ d) : (a * C c).natDegree ≤ d :=
  (natDegree_mul_C_le _ _).trans ha

theorem deg_C' {a : K[X]} {c : K} {d : ℕ} (ha : a.natDegree ≤ d) : (C c * a).natDegree ≤ d :=
  (natDegree_C_mul_le _ _).trans ha

theorem polyMap_had : PolyMap (K := K) 1 ThPt.had := by
  intro d w hw
  rw [one_mul]
  refine ⟨⟨w.X + w.Y + (w.Z + w.T), w.X - w.Y + (w.Z - w.T), w.X + w.Y - (w.Z + w.T), w.X - w.Y - (w.Z - w.T)⟩, ⟨?_, ?_, ?_, ?_⟩, ?_⟩
  · exact deg_add (deg_add hw.X hw.Y) (deg_add hw.Z hw.T)
  · exact deg_add (deg_sub hw.X hw.Y) (deg_sub hw.Z hw.T)
  · exact deg_sub (deg_add hw.X hw.Y) (deg_add hw.Z hw.T)
  · exact deg_sub (deg_sub hw.X hw.Y) (deg_sub hw.Z hw.T)
  · intro x
    simp only [ThPt.ev, ThPt.had, eval_add, eval_sub]

theorem polyMap_sq : PolyMap (K := K) 2 (fun P => ⟨P.X * P.X, P.Y * P.Y, P.Z * P.Z, P.T * P.T⟩) := by
  intro d w hw
  refine ⟨⟨w.X * w.X, w.Y * w.Y, w.Z * w.Z, w.T * w.T⟩, ⟨deg_sq hw.X, deg_sq hw.Y, deg_sq hw.Z, deg_sq hw.T⟩, fun x => ?_⟩
  simp only [ThPt.ev, eval_mul]

theorem polyMap_sqTheta : PolyMap (K := K) 2 ThPt.sqTheta := by
  have := (polyMap_had (K := K)).comp polyMap_sq
  rwa [one_mul] at this

theorem polyMap_diag (b c d : K) : PolyMap 1 (fun P : ThPt K => ⟨P.X, P.Y * b, P.Z * c, P.T * d⟩) := by
  intro e w hw
  rw [one_mul]
  refine ⟨⟨w.X, w.Y * C b, w.Z * C c, w.T * C d⟩, ⟨hw.X, deg_C hw.Y, deg_C hw.Z, deg_C hw.T⟩, fun x => ?_⟩
  simp only [ThPt.ev, eval_mul, eval_C]

theorem polyMap_baseChange (M : Mat4 K) : PolyMap 1 (fun P : ThPt K => P.baseChange M) := by
  intro e w hw
  rw [one_mul]
  have h : ∀ r : ThPt K, (C r.X * w.X + C r.Y * w.Y + C r.Z * w.Z + C r.T * w.T).natDegree ≤ e := fun r =>
    deg_add (deg_add (deg_add (deg_C' hw.X) (deg_C' hw.Y)) (deg_C' hw.Z)) (deg_C' hw.T)
  refine ⟨⟨_, _, _, _⟩, ⟨h M.r0, h M.r1, h M.r2, h M.r3⟩, fun x => ?_⟩
  simp only [ThPt.ev, ThPt.baseChange, ThPt.dot, eval_add, eval_mul, eval_C]

theorem polyMap_iso (b : Bool) (k : K × K × K) : PolyMap 2 (twoIsoImage false b k) := by
  have h := (polyMap_diag k.1 k.2.1 k.2.2).comp (polyMap_sqTheta (K := K))
  cases b
  · exact h
  · exact (polyMap_had (K := K)).comp h

theorem polyMap_toProd (T1 T2 : ThPt K) : PolyMap 2 (toProdImage T1 T2) := by
  have h := (polyMap_diag (T1.had.sqTheta.X * T1.had.sqTheta.Y⁻¹) (T2.had.sqTheta.X * T2.had.sqTheta.Z⁻¹)
    (T2.had.sqTheta.Y * T2.had.sqTheta.T⁻¹ * (T1.had.sqTheta.X * T1.had.sqTheta.Y⁻¹))).comp
    ((polyMap_sqTheta (K := K)).comp polyMap_had)
  exact h

theorem polyMap_chain : ∀ (r : ℕ) (O K1 K2 : ThPt K), PolyMap (2 ^ (r + 2)) (chainImg r O K1 K2)
  | 0, _, _, _ => (polyMap_toProd _ _).comp (polyMap_iso false _)
  | r + 1, _, _, _ => by
    rw [show r + 1 + 2 = (r + 2) + 1 by omega, pow_succ]
    exact (polyMap_chain r _ _ _).comp (polyMap_iso true _)

/-- The whole map after the gluing. -/
theorem polyMap_all (r : ℕ) (O K1 K2 : ThPt K) (M : Mat4 K) :
    PolyMap (2 ^ (r + 2)) (fun X => (chainImg r O K1 K2 X.had).baseChange M) := by
  have := (polyMap_baseChange M).comp ((polyMap_chain r O K1 K2).comp polyMap_had)
  rwa [one_mul, mul_one] at this

end Festa
