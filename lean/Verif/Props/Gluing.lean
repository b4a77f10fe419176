import Verif.Lemmas.GlueExact
import Verif.Props.Theta
import Verif.Props.Pairing
import Verif.Lemmas.Checks
/-! C67: the gluing isogeny on points of the product; C47: strategies. -/
namespace Festa
open WeierstrassCurve.Affine
variable {K : Type*} [Field K] [DecidableEq K]

theorem gluePts_of {E : EProd K} (g1 : E.E1.Good) (g2 : E.E2.Good) {P8 Q8 : CPt K} {p1 q1 : MPoint E.E1.A}
    {p2 q2 : MPoint E.E2.A} (rp1 : PRep P8.P1 p1) (rp2 : PRep P8.P2 p2) (rq1 : PRep Q8.P1 q1) (rq2 : PRep Q8.P2 q2)
    (b1 : IsBasis 8 p1 q1) (b2 : IsBasis 8 p2 q2) :
    ∃ e L m w e' L' m' w', GluePts E P8 Q8 p1 q1 p2 q2 e L m w e' L' m' w' := by
  obtain ⟨e, L, m, w, f1⟩ := facPts_of g1 b1
  obtain ⟨e', L', m', w', f2⟩ := facPts_of g2 b2
  exact ⟨e, L, m, w, e', L', m', w', g1, g2, f1, f2, rp1, rp2, rq1, rq2⟩

/-- The gluing isogeny.  Let the components of `P8, Q8` be bases of the 8-torsion of the two curves
and let the codomain null point be usable.  Then for all points of the product, infinity and points
of small order included, except those of `GlueExc`:

* the image lies on the Kummer surface of the codomain;
* the image does not change when a combination of the kernel points `4 P8, 4 Q8` is added, when the
  sign changes, or when other projective coordinates are chosen;
* doubling commutes with the map;
* infinity goes to the null point, and so do just the combinations of `4 P8, 4 Q8`. -/
theorem C67_gluing {E : EProd K} (g1 : E.E1.Good) (g2 : E.E2.Good) {P8 Q8 : CPt K} {p1 q1 : MPoint E.E1.A}
    {p2 q2 : MPoint E.E2.A} (rp1 : PRep P8.P1 p1) (rp2 : PRep P8.P2 p2) (rq1 : PRep Q8.P1 q1) (rq2 : PRep Q8.P2 q2)
    (b1 : IsBasis 8 p1 q1) (b2 : IsBasis 8 p2 q2) :
    ∃ O f, (∀ pts, gluingIsogeny E P8 Q8 pts = (ThStr.new O, pts.map f)) ∧ (ThNull O →
      (∀ {R : CPt K} {r1 : MPoint E.E1.A} {r2 : MPoint E.E2.A}, PRep R.P1 r1 → PRep R.P2 r2 →
        ¬ GlueExc p1 q1 p2 q2 r1 r2 → OnKummer O (f R)) ∧
      (∀ {R R' : CPt K} {r1 : MPoint E.E1.A} {r2 : MPoint E.E2.A} (a b : Nat), PRep R.P1 r1 → PRep R.P2 r2 →
        PRep R'.P1 (r1 + (a • (4 • p1) + b • (4 • q1))) → PRep R'.P2 (r2 + (a • (4 • p2) + b • (4 • q2))) →
        ¬ GlueExc p1 q1 p2 q2 r1 r2 → (f R).Same (f R')) ∧
      (∀ {R R' : CPt K} {r1 : MPoint E.E1.A} {r2 : MPoint E.E2.A}, PRep R.P1 r1 → PRep R.P2 r2 →
        PRep R'.P1 (-r1) → PRep R'.P2 (-r2) → ¬ GlueExc p1 q1 p2 q2 r1 r2 → (f R).Same (f R')) ∧
      (∀ {R R' : CPt K} {r1 : MPoint E.E1.A} {r2 : MPoint E.E2.A}, PRep R.P1 r1 → PRep R.P2 r2 →
        PRep R'.P1 (2 • r1) → PRep R'.P2 (2 • r2) → ¬ GlueExc p1 q1 p2 q2 r1 r2 →
        ¬ GlueExc p1 q1 p2 q2 (2 • r1) (2 • r2) → ((ThStr.new O).double (f R)).Same (f R')) ∧
      (∀ {R : CPt K}, PRep R.P1 (0 : MPoint E.E1.A) → PRep R.P2 (0 : MPoint E.E2.A) → O.Same (f R)) ∧
      (∀ {R : CPt K} {r1 : MPoint E.E1.A} {r2 : MPoint E.E2.A}, PRep R.P1 r1 → PRep R.P2 r2 →
        ¬ GlueExc p1 q1 p2 q2 r1 r2 → (O.Same (f R) ↔
          ∃ a b : Nat, r1 = a • (4 • p1) + b • (4 • q1) ∧ r2 = a • (4 • p2) + b • (4 • q2)))) := by
  obtain ⟨e, L, m, w, e', L', m', w', h⟩ := gluePts_of g1 g2 rp1 rp2 rq1 rq2 b1 b2
  refine ⟨glueNull E P8 Q8, glue E P8 Q8, gluing_eq E P8 Q8, fun hn => ⟨?_, ?_, ?_, ?_, ?_, ?_⟩⟩
  · intro R r1 r2 h1 h2 hex
    exact h.kummer hn h1 h2 hex
  · intro R R' r1 r2 a b h1 h2 h1' h2' hex
    exact h.add_kernel hn a b h1 h2 h1' h2' hex
  · intro R R' r1 r2 h1 h2 h1' h2' hex
    exact h.neg hn h1 h2 h1' h2' hex (h.exc_neg hex)
  · intro R R' r1 r2 h1 h2 h1' h2' hex hex'
    exact h.double hn h1 h2 h1' h2' hex hex'
  · intro R h1 h2
    exact h.zero hn h1 h2
  · intro R r1 r2 h1 h2 hex
    refine ⟨h.exact hn h1 h2 hex, ?_⟩
    rintro ⟨a, b, e1, e2⟩
    have two : ∀ {A : K} {p q : MPoint A}, IsBasis 8 p q →
        a • (4 • p) + b • (4 • q) + (a • (4 • p) + b • (4 • q)) = 0 := by
      intro A p q hb
      have := (hb (8 * a) (8 * b)).mpr ⟨⟨_, rfl⟩, ⟨_, rfl⟩⟩
      rw [← this]
      simp only [← natCast_zsmul, ← mul_zsmul]
      rw [add_add_add_comm, ← add_zsmul, ← add_zsmul]
      congr 2 <;> push_cast <;> ring
    have z := h.add_kernel hn a b (R' := ⟨Pt.inf, Pt.inf⟩) h1 h2 (by rw [e1, two b1]; exact prep_inf)
      (by rw [e2, two b2]; exact prep_inf) hex
    exact (h.zero hn prep_inf prep_inf).trans z.symm

/-- The two components of `p127, q127` are bases of the 64-torsion. -/
theorem bases127 : ∃ (p1 q1 : MPoint e127.E1.A) (p2 q2 : MPoint e127.E2.A), PRep p127.P1 p1 ∧ PRep p127.P2 p2 ∧
    PRep q127.P1 q1 ∧ PRep q127.P2 q2 ∧ IsBasis (2 ^ 6) p1 q1 ∧ IsBasis (2 ^ 6) p2 q2 := by
  have h1 := prep_pt e127_good (p := p127.P1) (by decide +kernel)
  have h2 := prep_pt (E := e127.E2) e127_good (p := p127.P2) (by decide +kernel)
  have h3 := prep_pt e127_good (p := q127.P1) (by decide +kernel)
  have h4 := prep_pt (E := e127.E2) e127_good (p := q127.P2) (by decide +kernel)
  exact ⟨_, _, _, _, h1, h2, h3, h4, isBasis_of_pow_check e127_good (e := 5) h1 h3 (by norm_num) (by decide +kernel),
    isBasis_of_pow_check (E := e127.E2) e127_good (e := 5) h2 h4 (by norm_num) (by decide +kernel)⟩

/-- The first step of the chain over the field with `127^2` elements: the kernel points, of order 64,
and the point with infinity as second component, are mapped to the Kummer surface, and doubling
commutes with the map there. -/
example : ∃ f, (∀ pts, gluingIsogeny e127 (e127.doubleIter p127 3) (e127.doubleIter q127 3) pts =
      (ThStr.new o127, pts.map f)) ∧ OnKummer o127 (f p127) ∧ OnKummer o127 (f ⟨p127.P1, Pt.inf⟩) ∧
    ((ThStr.new o127).double (f p127)).Same (f (e127.double p127)) ∧ ¬ o127.Same (f p127) := by
  obtain ⟨p1, q1, p2, q2, h1, h2, h3, h4, b1, b2⟩ := bases127
  have g2 : e127.E2.Good := e127_good
  have c1 : IsBasis 8 (2 ^ 3 • p1) (2 ^ 3 • q1) := IsBasis.nsmul (m := 2 ^ 3) (by exact b1) (by norm_num)
  have c2 : IsBasis 8 (2 ^ 3 • p2) (2 ^ 3 • q2) := IsBasis.nsmul (m := 2 ^ 3) (by exact b2) (by norm_num)
  obtain ⟨O, f, hf, h⟩ := C67_gluing (P8 := e127.doubleIter p127 3) (Q8 := e127.doubleIter q127 3) e127_good g2
    (prep_doubleIter e127_good h1 3) (prep_doubleIter g2 h2 3) (prep_doubleIter e127_good h3 3)
    (prep_doubleIter g2 h4 3) c1 c2
  have hO : O = o127 := (congrArg (fun t => t.1.null) (hf [])).symm
  subst hO
  obtain ⟨k1, -, -, k2, -, k3⟩ := h o127_null
  have nex : ∀ (k : Nat) (r2 : MPoint e127.E2.A), ¬ 16 ∣ k →
      ¬ GlueExc (2 ^ 3 • p1) (2 ^ 3 • q1) (2 ^ 3 • p2) (2 ^ 3 • q2) (k • p1) r2 := by
    intro k r2 hk hx
    have t1 : 2 • 4 • 2 ^ 3 • p1 = 0 := by rw [← mul_nsmul', ← mul_nsmul']; exact b1.nsmul_left
    have t2 : 2 • 4 • 2 ^ 3 • q1 = 0 := by rw [← mul_nsmul', ← mul_nsmul']; exact b1.nsmul_right
    have h4 : 2 • (2 • (k • p1)) = 0 := by
      rcases hx with ⟨x, -⟩ | ⟨x, -⟩
      · rw [x, t2]
      · rw [x, nsmul_add, t1, t2, add_zero]
    have := (b1 ((2 * 2 * k : Nat) : Int) 0).mp (by
      rw [natCast_zsmul, mul_nsmul', mul_nsmul', h4, zero_zsmul, add_zero])
    have h5 : 2 ^ 6 ∣ 2 * 2 * k := by exact_mod_cast this.1
    exact hk (by omega)
  have n1 := fun r2 => nex 1 r2 (by norm_num)
  simp only [one_nsmul] at n1
  refine ⟨f, hf, k1 h1 h2 (n1 _), k1 (R := ⟨p127.P1, Pt.inf⟩) h1 prep_inf (n1 _),
    k2 h1 h2 (prep_double e127_good h1) (prep_double g2 h2) (n1 _) (nex 2 (2 • p2) (by norm_num)), fun hs => ?_⟩
  obtain ⟨a, b, hs, -⟩ := (k3 h1 h2 (n1 _)).mp hs
  have e : (1 - 32 * (a : ℤ)) • p1 + (-(32 * (b : ℤ))) • q1 =
      p1 - (a • 4 • 2 ^ 3 • p1 + b • 4 • 2 ^ 3 • q1) := by module
  have := (b1 (1 - 32 * a) (-(32 * b))).mp (by rw [e, ← hs, sub_self])
  omega

/-- The exception is needed: for such a pair of points of order four the image computed by the code is
not on the Kummer surface. -/
theorem C67_exceptional_fails : ∃ (P8 Q8 R : CPt F127) (p1 q1 r1 : MPoint e127.E1.A) (p2 q2 r2 : MPoint e127.E2.A)
    (O T : ThPt F127), PRep P8.P1 p1 ∧ PRep P8.P2 p2 ∧ PRep Q8.P1 q1 ∧ PRep Q8.P2 q2 ∧ PRep R.P1 r1 ∧ PRep R.P2 r2 ∧
      IsBasis 8 p1 q1 ∧ IsBasis 8 p2 q2 ∧ GlueExc p1 q1 p2 q2 r1 r2 ∧
      gluingIsogeny e127 P8 Q8 [R] = (ThStr.new O, [T]) ∧ ThNull O ∧ ¬ OnKummer O T := by
  obtain ⟨p1, q1, p2, q2, h1, h2, h3, h4, b1, b2⟩ := bases127
  have g2 : e127.E2.Good := e127_good
  have c1 : IsBasis 8 (2 ^ 3 • p1) (2 ^ 3 • q1) := IsBasis.nsmul (m := 2 ^ 3) (by exact b1) (by norm_num)
  have c2 : IsBasis 8 (2 ^ 3 • p2) (2 ^ 3 • q2) := IsBasis.nsmul (m := 2 ^ 3) (by exact b2) (by norm_num)
  have k3 := prep_doubleIter e127_good h3 3
  have k2 := prep_doubleIter g2 h2 3
  have k4 := prep_doubleIter g2 h4 3
  refine ⟨e127.doubleIter p127 3, e127.doubleIter q127 3,
    ⟨e127.E1.double (e127.doubleIter q127 3).P1, e127.E2.double (e127.E2.add (e127.doubleIter p127 3).P2
      (e127.doubleIter q127 3).P2)⟩, _, _, _, _, _, _, _, _, prep_doubleIter e127_good h1 3, k2, k3, k4,
    prep_double e127_good k3, prep_double g2 (prep_add g2 k2 k4), c1, c2, .inl ⟨?_, ?_⟩, rfl, o127_null, ?_⟩
  · rw [← mul_nsmul']
  · rw [← mul_nsmul', nsmul_add]
  · unfold OnKummer
    decide +kernel

/-! ### Strategies -/

section
variable [RootOps K]

/-- With any strategy for `n` steps the code returns what the chain without strategy returns.  The
kernel is given by points whose components are bases of the `2^(n+2)`-torsion of the two curves.  The
chain is assumed regular (`ChainOK`) from the images of the kernel points under the gluing isogeny on:
no null point up to the last two has a vanishing (dual) coordinate, and the kernel points are in the
position the formulas need. -/
theorem C47_strategy_equals_naive {E : EProd K} (g1 : E.E1.Good) (g2 : E.E2.Good) {P Q : CPt K} {n : Nat}
    {p1 q1 : MPoint E.E1.A} {p2 q2 : MPoint E.E2.A}
    (rp1 : PRep P.P1 p1) (rp2 : PRep P.P2 p2) (rq1 : PRep Q.P1 q1) (rq2 : PRep Q.P2 q2)
    (b1 : IsBasis (2 ^ (n + 2)) p1 q1) (b2 : IsBasis (2 ^ (n + 2)) p2 q2)
    {O T1 T2 : ThPt K}
    (hg : gluingIsogeny E (E.doubleIter P (n - 1)) (E.doubleIter Q (n - 1)) [P, Q] = (ThStr.new O, [T1, T2]))
    (hok : ChainOK (n - 1) O T1 T2) {S : List Nat} (hS : IsStrategy n S) (images : List (CPt K)) :
    productIsogeny E P Q images n S = productIsogenyNaive E P Q images n := by
  have hn := hS.pos
  have hp : 2 ^ (n + 2) = 2 ^ (n - 1) * 8 := by
    rw [show (8 : Nat) = 2 ^ 3 from rfl, ← pow_add]; congr 1; omega
  obtain ⟨e, L, m, w, e', L', m', w', h⟩ := gluePts_of (P8 := E.doubleIter P (n - 1))
    (Q8 := E.doubleIter Q (n - 1)) g1 g2 (prep_doubleIter g1 rp1 (n - 1)) (prep_doubleIter g2 rp2 (n - 1))
    (prep_doubleIter g1 rq1 (n - 1)) (prep_doubleIter g2 rq2 (n - 1))
    (IsBasis.nsmul (hp ▸ b1) (by positivity)) (IsBasis.nsmul (hp ▸ b2) (by positivity))
  rw [gluing_eq] at hg
  simp only [Prod.mk.injEq, List.map_cons, List.map_nil, List.cons.injEq, and_true] at hg
  obtain ⟨e0, e1, e2⟩ := hg
  have e0 : glueNull E (E.doubleIter P (n - 1)) (E.doubleIter Q (n - 1)) = O := congrArg ThStr.null e0
  subst e0 e1 e2
  have hnull : 3 ≤ n → ThNull (glueNull E (E.doubleIter P (n - 1)) (E.doubleIter Q (n - 1))) := by
    intro h3
    obtain ⟨k, rfl⟩ : ∃ k, n = k + 3 := ⟨n - 3, by omega⟩
    cases k with
    | zero => exact hok
    | succ k => exact hok.1
  -- points doubled fewer than `n` times are not exceptional
  have nex : ∀ X ∈ [P, Q], ∃ (r1 : MPoint E.E1.A) (r2 : MPoint E.E2.A), PRep X.P1 r1 ∧ PRep X.P2 r2 ∧
      ∀ p, p < n → ¬ GlueExc (2 ^ (n - 1) • p1) (2 ^ (n - 1) • q1) (2 ^ (n - 1) • p2) (2 ^ (n - 1) • q2)
        (2 ^ p • r1) (2 ^ p • r2) := by
    have key : ∀ (r1 : MPoint E.E1.A) (r2 : MPoint E.E2.A), 2 ^ (n + 1) • r1 ≠ 0 → ∀ p, p < n →
        ¬ GlueExc (2 ^ (n - 1) • p1) (2 ^ (n - 1) • q1) (2 ^ (n - 1) • p2) (2 ^ (n - 1) • q2)
          (2 ^ p • r1) (2 ^ p • r2) := by
      intro r1 r2 h0 p hp hx
      have h4 : 2 • (2 • (2 ^ p • r1)) = 0 := by
        rcases hx with ⟨x, -⟩ | ⟨x, -⟩
        · rw [x]; exact h.f1.two_fq
        · rw [x, nsmul_add, h.f1.two_fp, h.f1.two_fq, add_zero]
      apply h0
      rw [show n + 1 = (n - 1 - p) + (1 + 1 + p) by omega, pow_add, mul_nsmul', pow_add, pow_add, mul_assoc, mul_nsmul',
        mul_nsmul', pow_one, h4, nsmul_zero]
    have hd : ¬ 2 ^ (n + 2) ∣ 2 ^ (n + 1) := by
      rw [Nat.pow_dvd_pow_iff_le_right (by norm_num)]; omega
    intro X hX
    simp only [List.mem_cons, List.not_mem_nil, or_false] at hX
    rcases hX with rfl | rfl
    · exact ⟨p1, p2, rp1, rp2, key p1 p2 fun h0 => hd (by
        have := (b1 (2 ^ (n + 1) : Nat) 0).mp (by rw [natCast_zsmul, h0, zero_zsmul, add_zero])
        exact_mod_cast this.1)⟩
    · exact ⟨q1, q2, rq1, rq2, key q1 q2 fun h0 => hd (by
        have := (b1 0 (2 ^ (n + 1) : Nat)).mp (by rw [natCast_zsmul, h0, zero_zsmul, add_zero])
        exact_mod_cast this.2)⟩
  refine productIsogeny_eq RootOps.two_ne E P Q images hS ?_ ?_ hok
  · intro p hp X hX
    obtain ⟨r1, r2, x1, x2, hx⟩ := nex X hX
    induction p with
    | zero => exact ThPt.Same.refl _
    | succ p ih =>
      have ih := ih (by omega)
      rw [ThStr.doubleIter, Function.iterate_succ_apply']
      refine (double_same _ ih).trans ?_
      refine h.double (hnull (by omega)) (prep_doubleIter g1 x1 p) (prep_doubleIter g2 x2 p) ?_ ?_
        (hx p (by omega)) ?_
      · rw [← mul_nsmul', ← pow_succ']; exact prep_doubleIter g1 x1 (p + 1)
      · rw [← mul_nsmul', ← pow_succ']; exact prep_doubleIter g2 x2 (p + 1)
      · rw [← mul_nsmul', ← mul_nsmul', ← pow_succ']; exact hx (p + 1) (by omega)
  · intro h4 X hX
    obtain ⟨r1, r2, x1, x2, hx⟩ := nex X hX
    have := hx 0 (by omega)
    rw [pow_zero, one_nsmul, one_nsmul] at this
    exact h.kummer (hnull (by omega)) x1 x2 this

end

example (images : List (CPt F127)) : productIsogeny e127 p127 q127 images 4 [2, 1, 1] =
    productIsogenyNaive e127 p127 q127 images 4 := by
  obtain ⟨p1, q1, p2, q2, h1, h2, h3, h4, b1, b2⟩ := bases127
  refine C47_strategy_equals_naive e127_good (e127_good : e127.E2.Good) h1 h2 h3 h4 b1 b2 rfl chain127 ?_ images
  obtain ⟨S, hS, h⟩ := parseStrategy_sound 9 4 [2, 1, 1] [] (by decide +kernel)
  rw [List.append_nil] at hS; rw [hS]; exact h

end Festa
