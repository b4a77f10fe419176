import Verif.Lemmas.KaniPen
import Verif.Lemmas.KaniUp
import Verif.Lemmas.KaniDescent
/-! The chain of the code for the diamond ends in a product. -/
namespace Festa
open WeierstrassCurve.Affine

section
variable {K L : Type*} [Field K] [Field L] (σ : K →+* L)

theorem up_wf (j : Fin 10) (S D : ThPt K) : wf j (S.up σ) (D.up σ) = σ (wf j S D) := by
  fin_cases j <;> simp only [wf, up_X, up_Y, up_Z, up_T, map_add, map_sub, map_mul]

theorem SixNZ.up {O : ThPt K} (h : SixNZ O) : SixNZ (O.up σ) := by
  obtain ⟨a, b, c, d, e, f⟩ := h
  constructor <;> rw [up_wf, map_ne_zero] <;> assumption

theorem Aligned.up {D1 D2 : ThPt K} (h : Aligned D1 D2) : Aligned (D1.up σ) (D2.up σ) := by
  obtain ⟨a, b, c, d⟩ := h
  constructor
  · rw [up_Y, a, map_zero]
  · rw [up_T, b, map_zero]
  · rw [up_Z, c, map_zero]
  · rw [up_T, d, map_zero]

theorem JacChain.up : ∀ {r : ℕ} {O T1 T2 : ThPt K}, JacChain r O T1 T2 → JacChain r (O.up σ) (T1.up σ) (T2.up σ)
  | 0, _, _, _, h => h.elim
  | 1, _, _, _, h => h.elim
  | 2, O, T1, T2, h => by
    obtain ⟨h1, h2, h3, h4, h5⟩ := h
    refine ⟨h1.up σ, h2.up σ, ?_, ?_, ?_⟩
    · rw [← up_new, ← up_double, ← up_double, ← up_double, ← up_double]; exact h3.up σ
    · rw [← up_new, ← up_double, ← up_double, ← up_isoNull]; exact h4.up σ
    · rw [← up_new, ← up_double, ← up_double, ← up_isoImage, ← up_isoImage]; exact h5.up σ
  | r + 3, O, T1, T2, h => by
    obtain ⟨h1, h2, h3, h4⟩ := h
    refine ⟨h1.up σ, h2.up σ, ?_, ?_⟩
    · rw [← up_new, ← up_doubleIter, ← up_doubleIter, ← up_double, ← up_double]; exact h3.up σ
    · rw [← up_new, ← up_doubleIter, ← up_doubleIter, ← up_isoNull, ← up_isoImage, ← up_isoImage]; exact JacChain.up h4

theorem up_penNull : ∀ (r : ℕ) (O T1 T2 : ThPt K), (penNull r O T1 T2).up σ = penNull r (O.up σ) (T1.up σ) (T2.up σ)
  | 0, O, T1, T2 => by simp only [penNull, ← up_new, ← up_double, ← up_isoNull]
  | r + 1, O, T1, T2 => by
    simp only [penNull, ← up_new, ← up_doubleIter, ← up_isoNull, ← up_isoImage]
    exact up_penNull r _ _ _

variable [DecidableEq K] [DecidableEq L] [IsAlgClosed L]

/-- The chain of the diamond, when it stays among Jacobians up to its last step, ends in a product, always with the same vanishing
constant. -/
theorem jac_prod {E : EProd K} (g1 : E.E1.Good) (g2 : E.E2.Good) {P Q : CPt K} {n : Nat}
    {p1 q1 : MPoint E.E1.A} {p2 q2 : MPoint E.E2.A}
    (rp1 : PRep P.P1 p1) (rp2 : PRep P.P2 p2) (rq1 : PRep Q.P1 q1) (rq2 : PRep Q.P2 q2)
    (b1 : IsBasis (2 ^ (n + 2)) p1 q1) (b2 : IsBasis (2 ^ (n + 2)) p2 q2) {O T1 T2 : ThPt K} (h3 : 3 ≤ n)
    (hg : gluingIsogeny E (E.doubleIter P (n - 1)) (E.doubleIter Q (n - 1)) [P, Q] = (ThStr.new O, [T1, T2]))
    (hc : JacChain (n - 1) O T1 T2)
    {A0 AF : L} {β : MPoint A0 →+ MPoint (E.up σ).E1.A} {α : MPoint A0 →+ MPoint AF} {γ : MPoint AF →+ MPoint (E.up σ).E2.A}
    {d1 dA e m1 m2 g : ℕ} {X Y : MPoint A0} (dia : Diamond β α γ d1 dA e m1 m2 n g X Y)
    {a b : MPoint A0} (ea : 2 • a = X) (eb : 2 • b = Y)
    (kp1 : 2 • mapHom σ p1 = β a) (kp2 : 2 • mapHom σ p2 = g • γ (α a))
    (kq1 : 2 • mapHom σ q1 = β b) (kq2 : 2 • mapHom σ q2 = g • γ (α b)) :
    ProdChain (n - 1) O T1 T2 ∧
      (∀ I : List (ThPt K), ∃ J, naiveLoop n I.length (n - 1) (ThStr.new O) (I ++ [T1, T2]) =
        some (ThStr.new (chainNull (n - 3) O T1 T2), J)) ∧
      ∀ c i, Even (parity c i) → (evenConst (chainNull (n - 3) O T1 T2) c i = 0 ↔ (c, i) = (3, 0)) := by
  have h2 := g1.two
  have hp : 2 ^ (n + 2) = 2 ^ (n - 1) * 8 := by
    rw [show (8 : Nat) = 2 ^ 3 from rfl, ← pow_add]; congr 1; omega
  obtain ⟨ε, l, m, w, ε', l', m', w', h⟩ := gluePts_of (P8 := E.doubleIter P (n - 1))
    (Q8 := E.doubleIter Q (n - 1)) g1 g2 (prep_doubleIter g1 rp1 (n - 1)) (prep_doubleIter g2 rp2 (n - 1))
    (prep_doubleIter g1 rq1 (n - 1)) (prep_doubleIter g2 rq2 (n - 1))
    (IsBasis.nsmul (hp ▸ b1) (by positivity)) (IsBasis.nsmul (hp ▸ b2) (by positivity))
  rw [gluing_eq] at hg
  simp only [Prod.mk.injEq, List.map_cons, List.map_nil, List.cons.injEq, and_true] at hg
  obtain ⟨e0, e1, e2⟩ := hg
  have e0 : glueNull E (E.doubleIter P (n - 1)) (E.doubleIter Q (n - 1)) = O := congrArg ThStr.null e0
  have hnull : ThNull (glueNull E (E.doubleIter P (n - 1)) (E.doubleIter Q (n - 1))) := by
    rw [e0]
    obtain ⟨r, rfl⟩ : ∃ r, n = r + 3 := ⟨n - 3, by omega⟩
    cases r with
    | zero => exact hc.1
    | succ r => exact hc.1
  have frm : GlueFrm E p1 q1 p2 q2 n O T1 T2 ε l m w ε' l' m' w' := by
    rw [← e0]
    exact ⟨h.null hnull, e1 ▸ h.image hnull rp1 rp2 (by simpa using exc_comb (by omega) b1 b2 1 0),
      e2 ▸ h.image hnull rq1 rq2 (by simpa using exc_comb (by omega) b1 b2 0 1)⟩
  have f1' := h.f1.up σ g1
  have f2' := h.f2.up σ g2
  rw [map_nsmul, map_nsmul] at f1' f2'
  have on : ∀ {x : MPoint E.E1.A × MPoint E.E2.A} {T : ThPt K}, (glueW E p1 q1 p2 q2 n ε l m w ε' l' m' w' x).had.Same T →
      OnKummer O T ∧ T ≠ ThPt.zero := by
    intro x T hT
    refine ⟨?_, fun h0 => ?_⟩
    · refine OnKummer.same ?_ hT
      rw [frm.null]; exact h.w_kummer _ _
    · obtain ⟨c, hc, e⟩ := hT
      exact h.w_ne _ _ (scale_eq_zero hc (e.symm.trans h0))
  obtain ⟨r, rfl⟩ : ∃ r, n = r + 3 := ⟨n - 3, by omega⟩
  obtain ⟨hr, hpr⟩ := hc.prod h2 r (on frm.fst).1 (on frm.snd).1 (on frm.fst).2 (on frm.snd).2
  have hT := dia.pen (g1.up σ) (g2.up σ) h3 f1' f2' (frm.up σ) (hc.up σ) ea eb (Prod.ext kp1 kp2) (Prod.ext kq1 kq2)
  rw [← up_penNull, up_T, map_eq_zero] at hT
  obtain ⟨hprod, hone⟩ := hpr hT
  refine ⟨hprod, ?_⟩
  obtain ⟨O', f, ⟨fO, -⟩, -, -, -, -, -, hloop⟩ := naiveLoop_map (G := ℤ) (fun _ => True) 0 0 h2 (r + 3) r O T1 T2 (by omega) hr
    (on frm.fst).1 (on frm.snd).1
  subst fO
  refine ⟨fun I => ⟨_, hloop I⟩, fun c i hci => ?_⟩
  rw [show r + 3 - 3 = r by omega]
  obtain ⟨j, hj⟩ := wi_surj c i hci
  have := hone (hperm j)
  rw [wf_had, hperm_hperm, mul_eq_zero, or_iff_right (four_ne h2), ← evenConst_wi, hj] at this
  rw [this, ← hj]
  clear this hj
  revert j; decide

end
end Festa
