import Verif.Lemmas.OffLadder
/-! Scalar multiplication commutes with maps of fields. -/
namespace Festa
open WeierstrassCurve.Affine
variable {K L : Type*} [Field K] [Field L] (φ : K →+* L)

/-- The coordinates in a larger field. -/
def Pt.mapK (P : Pt K) : Pt L := ⟨φ P.X, φ P.Y, φ P.Z⟩
/-- The curve over a larger field. -/
def Crv.mapK (E : Crv K) : Crv L := ⟨φ E.A, φ E.A24⟩
/-- The ladder state in a larger field. -/
def Lad.mapK (s : Lad K) : Lad L := ⟨φ s.X0, φ s.Z0, φ s.X1, φ s.Z1, s.cc⟩

theorem map_two : φ 2 = 2 := by
  rw [← one_add_one_eq_two, map_add, map_one, one_add_one_eq_two]

theorem apply_cond' (a b : K) (c : Bool) : φ (cond' a b c) = cond' (φ a) (φ b) c := by
  cases c <;> rfl

theorem swap_mapK (s : Lad K) (c : Bool) : (s.swap c).mapK φ = (s.mapK φ).swap c := by
  simp only [Lad.swap, Lad.mapK, apply_cond']

theorem xAdd_mapK (a b c d e f : K) :
    xAdd (φ a) (φ b) (φ c) (φ d) (φ e) (φ f) = (φ (xAdd a b c d e f).1, φ (xAdd a b c d e f).2) := by
  simp [xAdd]

theorem xAddAff_mapK (a c d e f : K) :
    xAddAff (φ a) (φ c) (φ d) (φ e) (φ f) = (φ (xAddAff a c d e f).1, φ (xAddAff a c d e f).2) := by
  simp [xAddAff]

theorem xDbl_mapK (E : Crv K) (a b : K) :
    (E.mapK φ).xDbl (φ a) (φ b) = (φ (E.xDbl a b).1, φ (E.xDbl a b).2) := by
  simp [Crv.xDbl, Crv.mapK]

theorem ladStep_mapK (E : Crv K) (f : K → K → K → K → K × K) (g : L → L → L → L → L × L)
    (h : ∀ a b c d, g (φ a) (φ b) (φ c) (φ d) = (φ (f a b c d).1, φ (f a b c d).2)) (s : Lad K) (ctl : Bool) :
    (E.ladStep f s ctl).mapK φ = (E.mapK φ).ladStep g (s.mapK φ) ctl := by
  unfold Crv.ladStep
  have e : (s.mapK φ).swap (ctl ^^ (s.mapK φ).cc) = (s.swap (ctl ^^ s.cc)).mapK φ := by
    rw [swap_mapK]; rfl
  dsimp only
  rw [e]
  simp only [Lad.mapK, h, xDbl_mapK]

theorem ladLoop_mapK (n : List UInt8) (st : Lad K → Bool → Lad K) (st' : Lad L → Bool → Lad L)
    (h : ∀ s b, (st s b).mapK φ = st' (s.mapK φ) b) (i : Nat) (s : Lad K) :
    ladLoop n st' i (s.mapK φ) = (ladLoop n st i s).map (Lad.mapK φ) := by
  induction i generalizing s with
  | zero => rfl
  | succ i ih =>
    unfold ladLoop
    rcases bitAt n i with _ | b
    · rfl
    · dsimp only
      rw [← h, ih]

theorem cond_mapK (P Q : Pt K) (c : Bool) : (P.cond Q c).mapK φ = (P.mapK φ).cond (Q.mapK φ) c := by
  simp only [Pt.cond, Pt.mapK, apply_cond']

theorem condNeg_mapK (P : Pt K) (c : Bool) : (P.condNeg c).mapK φ = (P.mapK φ).condNeg c := by
  cases c <;> simp [Pt.condNeg, Pt.mapK, cond']

theorem double_mapK (E : Crv K) (P : Pt K) : (E.double P).mapK φ = (E.mapK φ).double (P.mapK φ) := by
  simp only [Crv.double, Pt.mapK, Crv.mapK, map_mul, map_sub, map_add, map_two]

variable [DecidableEq K] [DecidableEq L]

theorem mulFinish_mapK (E : Crv K) (P : Pt K) (s : Lad K) (n0 : UInt8) :
    (E.mulFinish P s n0).mapK φ = (E.mapK φ).mulFinish (P.mapK φ) (s.mapK φ) n0 := by
  have e : (s.mapK φ).swap (s.mapK φ).cc = (s.swap s.cc).mapK φ := by rw [swap_mapK]; rfl
  unfold Crv.mulFinish
  dsimp only
  rw [e]
  generalize s.swap s.cc = t
  have z : ∀ a : K, decide (φ a = 0) = decide (a = 0) := fun a =>
    decide_eq_decide.mpr (map_eq_zero φ)
  have q : ∀ a b c d : K, decide (φ a * φ b = φ c * φ d) = decide (a * b = c * d) := fun a b c d =>
    decide_eq_decide.mpr (by rw [← map_mul, ← map_mul, φ.injective.eq_iff])
  rw [condNeg_mapK, cond_mapK, cond_mapK, double_mapK]
  have hZ : (t.mapK φ).Z0 = φ t.Z0 ∧ (t.mapK φ).Z1 = φ t.Z1 ∧ (t.mapK φ).X0 = φ t.X0 ∧ (t.mapK φ).X1 = φ t.X1 ∧
    (P.mapK φ).X = φ P.X ∧ (P.mapK φ).Y = φ P.Y ∧ (P.mapK φ).Z = φ P.Z ∧ (E.mapK φ).A = φ E.A :=
    ⟨rfl, rfl, rfl, rfl, rfl, rfl, rfl, rfl⟩
  obtain ⟨h1, h2, h3, h4, h5, h6, h7, h8⟩ := hZ
  rw [h1, h2, h3, h4, h5, h6, h7, h8]
  simp only [z, q]
  congr 3
  simp only [Pt.mapK, apply_cond', map_mul, map_sub, map_add, map_zero, map_two]

/-- `mul_into` commutes with maps of fields. -/
theorem mul_mapK (E : Crv K) (P : Pt K) (n : List UInt8) (b : Nat) :
    (E.mapK φ).mul (P.mapK φ) n b = (E.mul P n b).map (Pt.mapK φ) := by
  unfold Crv.mul
  dsimp only
  have hs : (⟨1, 0, (P.mapK φ).X, (P.mapK φ).Z, false⟩ : Lad L) = (⟨1, 0, P.X, P.Z, false⟩ : Lad K).mapK φ := by
    simp [Lad.mapK, Pt.mapK]
  rw [hs]
  have key : (if b > 21 then ladLoop n ((E.mapK φ).ladStep (xAddAff ((P.mapK φ).X / (P.mapK φ).Z))) b
        ((⟨1, 0, P.X, P.Z, false⟩ : Lad K).mapK φ)
      else ladLoop n ((E.mapK φ).ladStep (xAdd (P.mapK φ).X (P.mapK φ).Z)) b ((⟨1, 0, P.X, P.Z, false⟩ : Lad K).mapK φ)) =
      (if b > 21 then ladLoop n (E.ladStep (xAddAff (P.X / P.Z))) b ⟨1, 0, P.X, P.Z, false⟩
      else ladLoop n (E.ladStep (xAdd P.X P.Z)) b ⟨1, 0, P.X, P.Z, false⟩).map (Lad.mapK φ) := by
    split_ifs
    · refine ladLoop_mapK φ n _ _ (fun s c => ladStep_mapK φ E _ _ (fun a b c d => ?_) s c) b _
      show xAddAff (φ P.X / φ P.Z) _ _ _ _ = _
      rw [← map_div₀, xAddAff_mapK]
    · exact ladLoop_mapK φ n _ _ (fun s c => ladStep_mapK φ E _ _ (fun a b c d => xAdd_mapK φ _ _ _ _ _ _) s c) b _
  rw [key]
  generalize (if b > 21 then ladLoop n (E.ladStep (xAddAff (P.X / P.Z))) b ⟨1, 0, P.X, P.Z, false⟩
      else ladLoop n (E.ladStep (xAdd P.X P.Z)) b ⟨1, 0, P.X, P.Z, false⟩) = r
  rcases r with _ | s
  · rfl
  · rcases n with _ | ⟨n0, ns⟩
    · rfl
    · simp only [Option.map_some]
      rw [mulFinish_mapK]

theorem mulBig_mapK (E : Crv K) (P : Pt K) (n : Nat) :
    (E.mapK φ).mulBig (P.mapK φ) n = (E.mulBig P n).map (Pt.mapK φ) := mul_mapK φ E P _ _

end Festa
