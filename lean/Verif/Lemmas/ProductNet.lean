import Verif.Lemmas.KummerNet
import Verif.Lemmas.GlueExact
/-! The map computed by `product_isogeny` on the group of points of the product. -/
namespace Festa
variable {K : Type*} [Field K] [DecidableEq K]

/-- Projective coordinates of a point. -/
def ptOf {A : K} : MPoint A → Pt K
  | .zero => Pt.inf
  | .some x y _ => ⟨x, y, 1⟩

omit [DecidableEq K] in
theorem ptOf_rep {A : K} (r : MPoint A) : PRep (ptOf r) r := by
  rcases r with _ | ⟨x, y, k⟩
  · rfl
  · exact ⟨one_ne_zero, (mul_one x).symm, (mul_one y).symm⟩

/-- Combinations of the kernel points are not exceptional. -/
theorem exc_comb {A A' : K} {p1 q1 : MPoint A} {p2 q2 : MPoint A'} {n : Nat} (hn : 1 ≤ n) (b1 : IsBasis (2 ^ (n + 2)) p1 q1)
    (b2 : IsBasis (2 ^ (n + 2)) p2 q2) (a b : ℤ) :
    ¬ GlueExc (2 ^ (n - 1) • p1) (2 ^ (n - 1) • q1) (2 ^ (n - 1) • p2) (2 ^ (n - 1) • q2) (a • p1 + b • q1) (a • p2 + b • q2) := by
  have e4 : ∀ {A : K} (X : MPoint A), 4 • 2 ^ (n - 1) • X = ((2 ^ (n + 1) : ℕ) : ℤ) • X := by
    intro A X
    rw [← mul_nsmul', natCast_zsmul, show n + 1 = 2 + (n - 1) by omega, pow_add]
    rfl
  have hd : ¬ ((2 ^ (n + 2) : ℕ) : ℤ) ∣ ((2 ^ (n + 1) : ℕ) : ℤ) := by
    rw [Int.natCast_dvd_natCast, Nat.pow_dvd_pow_iff_le_right (by norm_num)]; omega
  have d1 : ∀ {A : K} {p q : MPoint A}, IsBasis (2 ^ (n + 2)) p q → 2 • (a • p + b • q) = 4 • 2 ^ (n - 1) • q →
      ((2 ^ (n + 2) : ℕ) : ℤ) ∣ 2 * a := by
    intro A p q hb h
    refine ((hb (2 * a) (2 * b - ((2 ^ (n + 1) : ℕ) : ℤ))).mp ?_).1
    rw [e4] at h
    rw [sub_zsmul, ← h, mul_zsmul, mul_zsmul, ofNat_zsmul, ofNat_zsmul, nsmul_add]
    abel
  have d2 : ∀ {A : K} {p q : MPoint A}, IsBasis (2 ^ (n + 2)) p q →
      2 • (a • p + b • q) = 4 • 2 ^ (n - 1) • p + 4 • 2 ^ (n - 1) • q →
      ((2 ^ (n + 2) : ℕ) : ℤ) ∣ 2 * a - ((2 ^ (n + 1) : ℕ) : ℤ) := by
    intro A p q hb h
    refine ((hb (2 * a - ((2 ^ (n + 1) : ℕ) : ℤ)) (2 * b - ((2 ^ (n + 1) : ℕ) : ℤ))).mp ?_).1
    rw [e4, e4] at h
    rw [sub_zsmul, sub_zsmul, mul_zsmul, mul_zsmul, ofNat_zsmul, ofNat_zsmul]
    rw [nsmul_add] at h
    have h := sub_eq_zero.mpr h
    rw [← h]
    abel
  rintro (⟨h1, h2⟩ | ⟨h1, h2⟩)
  · refine hd ?_
    have := dvd_sub (d1 b1 h1) (d2 b2 h2)
    rwa [sub_sub_cancel] at this
  · refine hd ?_
    have := dvd_sub (d1 b2 h2) (d2 b1 h1)
    rwa [sub_sub_cancel] at this

/-- What the code computes, as two maps into Kummer lines. -/
structure ProdNet (E : EProd K) (p1 q1 : MPoint E.E1.A) (p2 q2 : MPoint E.E2.A) (n : Nat) (E3 E4 : Crv K)
    (F : CPt K → CPt K) (o o' : K × K) (U V : MPoint E.E1.A × MPoint E.E2.A → K × K) [RootOps K] : Prop where
  good3 : E3.Good
  good4 : E4.Good
  a3 : E3.A = nullToMontCoeff o'
  a4 : E4.A = nullToMontCoeff o
  netU : Net o (fun r => ¬ GlueExc (2 ^ (n - 1) • p1) (2 ^ (n - 1) • q1) (2 ^ (n - 1) • p2) (2 ^ (n - 1) • q2) r.1 r.2) U
  netV : Net o' (fun r => ¬ GlueExc (2 ^ (n - 1) • p1) (2 ^ (n - 1) • q1) (2 ^ (n - 1) • p2) (2 ^ (n - 1) • q2) r.1 r.2) V
  out : ∀ {R : CPt K} {r1 : MPoint E.E1.A} {r2 : MPoint E.E2.A}, PRep R.P1 r1 → PRep R.P2 r2 →
    ¬ GlueExc (2 ^ (n - 1) • p1) (2 ^ (n - 1) • q1) (2 ^ (n - 1) • p2) (2 ^ (n - 1) • q2) r1 r2 →
    ∃ c d : K, c ≠ 0 ∧ d ≠ 0 ∧ F R =
      ⟨(E3.completePointX ⟨c * (U (r1, r2)).1 * (thetaToMontPoint o' (V (r1, r2))).X,
          c * (U (r1, r2)).1 * (thetaToMontPoint o' (V (r1, r2))).Z⟩).1,
       (E4.completePointX ⟨d * (V (r1, r2)).2 * (thetaToMontPoint o (U (r1, r2))).X,
          d * (V (r1, r2)).2 * (thetaToMontPoint o (U (r1, r2))).Z⟩).1⟩
  kerP : (∃ c, c ≠ 0 ∧ U (4 • p1, 4 • p2) = (c * o.1, c * o.2)) ∧ ∃ c, c ≠ 0 ∧ V (4 • p1, 4 • p2) = (c * o'.1, c * o'.2)
  kerQ : (∃ c, c ≠ 0 ∧ U (4 • q1, 4 • q2) = (c * o.1, c * o.2)) ∧ ∃ c, c ≠ 0 ∧ V (4 • q1, 4 • q2) = (c * o'.1, c * o'.2)
  exact : ∀ {r1 : MPoint E.E1.A} {r2 : MPoint E.E2.A},
    (∀ a b : ℤ, ¬ GlueExc (2 ^ (n - 1) • p1) (2 ^ (n - 1) • q1) (2 ^ (n - 1) • p2) (2 ^ (n - 1) • q2)
      (r1 + (a • 4 • p1 + b • 4 • q1)) (r2 + (a • 4 • p2 + b • 4 • q2))) →
    (∃ c, c ≠ 0 ∧ U (r1, r2) = (c * o.1, c * o.2)) → (∃ c, c ≠ 0 ∧ V (r1, r2) = (c * o'.1, c * o'.2)) →
    ∃ a b : ℤ, r1 = a • 4 • p1 + b • 4 • q1 ∧ r2 = a • 4 • p2 + b • 4 • q2

/-- The gluing of a pair of points in adapted coordinates. -/
def glueW (E : EProd K) (p1 q1 : MPoint E.E1.A) (p2 q2 : MPoint E.E2.A) (n : Nat) (e L m w e' L' m' w' : K)
    (x : MPoint E.E1.A × MPoint E.E2.A) : ThPt K :=
  gW (gD e L m e' L' m' (2 ^ (n - 1) • p1) (2 ^ (n - 1) • p2)) (gF e L m e' L' m' (2 ^ (n - 1) • q1) (2 ^ (n - 1) • q2))
    e L m w e' L' m' w' x.1 x.2

/-- The null point and the kernel points after the gluing, in adapted coordinates. -/
structure GlueFrm (E : EProd K) (p1 q1 : MPoint E.E1.A) (p2 q2 : MPoint E.E2.A) (n : Nat) (O T1 T2 : ThPt K)
    (e L m w e' L' m' w' : K) : Prop where
  null : O = (gn (gD e L m e' L' m' (2 ^ (n - 1) • p1) (2 ^ (n - 1) • p2))
    (gF e L m e' L' m' (2 ^ (n - 1) • q1) (2 ^ (n - 1) • q2))).had
  fst : (glueW E p1 q1 p2 q2 n e L m w e' L' m' w' (p1, p2)).had.Same T1
  snd : (glueW E p1 q1 p2 q2 n e L m w e' L' m' w' (q1, q2)).had.Same T2

theorem prodNet [RootOps K] {E : EProd K} (g1 : E.E1.Good) (g2 : E.E2.Good) {P Q : CPt K} {n : Nat}
    {p1 q1 : MPoint E.E1.A} {p2 q2 : MPoint E.E2.A}
    (rp1 : PRep P.P1 p1) (rp2 : PRep P.P2 p2) (rq1 : PRep Q.P1 q1) (rq2 : PRep Q.P2 q2)
    (b1 : IsBasis (2 ^ (n + 2)) p1 q1) (b2 : IsBasis (2 ^ (n + 2)) p2 q2) {O T1 T2 : ThPt K} (h3 : 3 ≤ n)
    (hg : gluingIsogeny E (E.doubleIter P (n - 1)) (E.doubleIter Q (n - 1)) [P, Q] = (ThStr.new O, [T1, T2]))
    (hc : ProdChain (n - 1) O T1 T2) :
    ∃ (E3 E4 : Crv K) (F : CPt K → CPt K) (o o' : K × K) (U V : MPoint E.E1.A × MPoint E.E2.A → K × K),
      ProdNet E p1 q1 p2 q2 n E3 E4 F o o' U V ∧
      (∃ (e L m w e' L' m' w' : K) (M : Mat4 K),
        FacPts E.E1 (2 ^ (n - 1) • p1) (2 ^ (n - 1) • q1) e L m w ∧
        FacPts E.E2 (2 ^ (n - 1) • p2) (2 ^ (n - 1) • q2) e' L' m' w' ∧
        GlueFrm E p1 q1 p2 q2 n O T1 T2 e L m w e' L' m' w' ∧
        splittingMatrix (chainNull (n - 3) O T1 T2) = some M ∧
        (chainNull (n - 3) O T1 T2).baseChange M = ThPt.tensor o o' ∧
        ∀ x : MPoint E.E1.A × MPoint E.E2.A,
          ¬ GlueExc (2 ^ (n - 1) • p1) (2 ^ (n - 1) • q1) (2 ^ (n - 1) • p2) (2 ^ (n - 1) • q2) x.1 x.2 →
          (ThPt.tensor (U x) (V x)).Same ((chainImg (n - 3) O T1 T2 (glueW E p1 q1 p2 q2 n e L m w e' L' m' w' x).had).baseChange M)) ∧
      ∀ images, productIsogenyNaive E P Q images n = some (⟨E3, E4⟩, images.map F) := by
  have h2 := g1.two
  have hp : 2 ^ (n + 2) = 2 ^ (n - 1) * 8 := by
    rw [show (8 : Nat) = 2 ^ 3 from rfl, ← pow_add]; congr 1; omega
  obtain ⟨e, L, m, w, e', L', m', w', h⟩ := gluePts_of (P8 := E.doubleIter P (n - 1))
    (Q8 := E.doubleIter Q (n - 1)) g1 g2 (prep_doubleIter g1 rp1 (n - 1)) (prep_doubleIter g2 rp2 (n - 1))
    (prep_doubleIter g1 rq1 (n - 1)) (prep_doubleIter g2 rq2 (n - 1))
    (IsBasis.nsmul (hp ▸ b1) (by positivity)) (IsBasis.nsmul (hp ▸ b2) (by positivity))
  rw [gluing_eq] at hg
  simp only [Prod.mk.injEq, List.map_cons, List.map_nil, List.cons.injEq, and_true] at hg
  obtain ⟨e0, e1, e2⟩ := hg
  have e0 : glueNull E (E.doubleIter P (n - 1)) (E.doubleIter Q (n - 1)) = O := congrArg ThStr.null e0
  have hgl := gluing_eq E (E.doubleIter P (n - 1)) (E.doubleIter Q (n - 1))
  rw [← e0] at hc
  have hnull : ThNull (glueNull E (E.doubleIter P (n - 1)) (E.doubleIter Q (n - 1))) := (ProdChain.reg _ hc).null
  have hfrm : GlueFrm E p1 q1 p2 q2 n (glueNull E (E.doubleIter P (n - 1)) (E.doubleIter Q (n - 1))) T1 T2 e L m w e' L' m' w' :=
    ⟨h.null hnull, e1 ▸ h.image hnull rp1 rp2 (by simpa using exc_comb (by omega) b1 b2 1 0),
      e2 ▸ h.image hnull rq1 rq2 (by simpa using exc_comb (by omega) b1 b2 0 1)⟩
  have himg := fun {R : CPt K} {r1 : MPoint E.E1.A} {r2 : MPoint E.E2.A} (a : PRep R.P1 r1) (b : PRep R.P2 r2) hx =>
    h.image hnull a b hx
  have hkum := fun {R : CPt K} {r1 : MPoint E.E1.A} {r2 : MPoint E.E2.A} (a : PRep R.P1 r1) (b : PRep R.P2 r2) hx =>
    h.kummer hnull a b hx
  have hne := fun {R : CPt K} {r1 : MPoint E.E1.A} {r2 : MPoint E.E2.A} (a : PRep R.P1 r1) (b : PRep R.P2 r2) hx =>
    h.glue_ne hnull a b hx
  have hrie := fun {R R' S D : CPt K} {r1 s1 : MPoint E.E1.A} {r2 s2 : MPoint E.E2.A}
    (a : PRep R.P1 r1) (b : PRep R.P2 r2) (c : PRep R'.P1 s1) (d : PRep R'.P2 s2) (i : PRep S.P1 (r1 + s1))
    (j : PRep S.P2 (r2 + s2)) (k : PRep D.P1 (r1 - s1)) (l : PRep D.P2 (r2 - s2)) x x' xs xd =>
    h.riem hnull a b c d i j k l x x' xs xd
  have hzero := fun {R : CPt K} a b => h.zero hnull (R := R) a b
  have hdbl := fun {R R' : CPt K} {r1 : MPoint E.E1.A} {r2 : MPoint E.E2.A} (a : PRep R.P1 r1) (b : PRep R.P2 r2) c d x x' =>
    h.double hnull (R := R) (R' := R') a b c d x x'
  have hxc := exc_comb (by omega) b1 b2
  have hexact := fun {R : CPt K} {r1 : MPoint E.E1.A} {r2 : MPoint E.E2.A} (a : PRep R.P1 r1) (b : PRep R.P2 r2) x hi =>
    h.exact hnull a b x hi
  generalize glueNull E (E.doubleIter P (n - 1)) (E.doubleIter Q (n - 1)) = G0 at *
  subst e0
  generalize hG : glue E (E.doubleIter P (n - 1)) (E.doubleIter Q (n - 1)) = gl at *
  obtain ⟨r, rfl⟩ : ∃ r, n = r + 3 := ⟨n - 3, by omega⟩
  obtain ⟨O', f, ⟨eO, ef⟩, hm, hO', k1, k2, hex, hloop⟩ := naiveLoop_map (G := MPoint E.E1.A × MPoint E.E2.A)
    (fun r' => ¬ GlueExc (2 ^ (r + 3 - 1) • p1) (2 ^ (r + 3 - 1) • q1) (2 ^ (r + 3 - 1) • p2) (2 ^ (r + 3 - 1) • q2) r'.1 r'.2)
    (p1, p2) (q1, q2) h2 (r + 3) r G0 T1 T2 (by omega) (ProdChain.reg _ hc)
    (e1 ▸ hkum rp1 rp2 (by simpa using hxc 1 0)) (e2 ▸ hkum rq1 rq2 (by simpa using hxc 0 1))
  obtain ⟨M, o, o', U, V, hM, hS, ho, hI, hker⟩ := splitData h2 hnull hm (hO'.of_had h2)
  obtain ⟨E3, c3, g3, a3⟩ := C50_curve h2 hS.right
  obtain ⟨E4, c4, g4, a4⟩ := C50_curve h2 hS.left
  have n3 : nullToMont (splitTheta (ThPt.tensor o o')).1 = some E3 := by
    simp only [nullToMont, splitTheta, ThPt.tensor, coeff_scale hS.left.a]
    exact c3
  have sp : ∀ a b : K × K, (splitTheta (ThPt.tensor a b)).2 = (b.2 * a.1, b.2 * a.2) := by
    intro a b; simp only [splitTheta, ThPt.tensor, mul_comm]
  have n4 : nullToMont (splitTheta (ThPt.tensor o o')).2 = some E4 := by
    rw [sp]
    simp only [nullToMont, coeff_scale hS.right.b]
    exact c4
  -- same point, same image
  have hsm : ∀ {R R' : CPt K} {r1 : MPoint E.E1.A} {r2 : MPoint E.E2.A}, PRep R.P1 r1 → PRep R.P2 r2 → PRep R'.P1 r1 →
      PRep R'.P2 r2 → ¬ GlueExc (2 ^ (r + 3 - 1) • p1) (2 ^ (r + 3 - 1) • q1) (2 ^ (r + 3 - 1) • p2) (2 ^ (r + 3 - 1) • q2) r1 r2 →
      (gl R).Same (gl R') := fun a b c d x => (himg a b x).symm.trans (himg c d x)
  let pr : MPoint E.E1.A × MPoint E.E2.A → CPt K := fun x => ⟨ptOf x.1, ptOf x.2⟩
  have z0 := hzero (R := pr 0) (ptOf_rep (0 : MPoint E.E1.A)) (ptOf_rep (0 : MPoint E.E2.A))
  have onz : G0 ≠ ThPt.zero := fun h0 => hnull.nz.X (by rw [h0]; rfl)
  have nz : ¬ GlueExc (2 ^ (r + 3 - 1) • p1) (2 ^ (r + 3 - 1) • q1) (2 ^ (r + 3 - 1) • p2) (2 ^ (r + 3 - 1) • q2)
      (0 : MPoint E.E1.A) (0 : MPoint E.E2.A) := by simpa using hxc 0 0
  -- four times a kernel point
  have quad : ∀ (X : CPt K) (x1 : MPoint E.E1.A) (x2 : MPoint E.E2.A), PRep X.P1 x1 → PRep X.P2 x2 →
      (∀ k : ℕ, ¬ GlueExc (2 ^ (r + 3 - 1) • p1) (2 ^ (r + 3 - 1) • q1) (2 ^ (r + 3 - 1) • p2) (2 ^ (r + 3 - 1) • q2)
        (k • x1) (k • x2)) →
      O'.Same (f ((ThStr.new G0).doubleIter (gl X) 2)) →
      (∃ c, c ≠ 0 ∧ U (gl (pr (4 • x1, 4 • x2))) = (c * o.1, c * o.2)) ∧
        ∃ c, c ≠ 0 ∧ V (gl (pr (4 • x1, 4 • x2))) = (c * o'.1, c * o'.2) := by
    intro X x1 x2 hx1 hx2 hx hs
    have x1' := hx 1
    have x2' := hx 2
    have x4' : ¬ GlueExc (2 ^ (r + 3 - 1) • p1) (2 ^ (r + 3 - 1) • q1) (2 ^ (r + 3 - 1) • p2) (2 ^ (r + 3 - 1) • q2)
        (2 • 2 • x1) (2 • 2 • x2) := by
      rw [← mul_nsmul', ← mul_nsmul']; exact hx 4
    rw [one_nsmul, one_nsmul] at x1'
    have d1 := hdbl (R' := E.double X) hx1 hx2 (prep_double g1 hx1) (prep_double g2 hx2) x1' x2'
    have d2 := hdbl (R := E.double X) (R' := E.double (E.double X)) (prep_double g1 hx1) (prep_double g2 hx2)
      (prep_double g1 (prep_double g1 hx1)) (prep_double g2 (prep_double g2 hx2)) x2' x4'
    have s4 : (gl (E.double (E.double X))).Same (gl (pr (4 • x1, 4 • x2))) := by
      refine hsm (prep_double g1 (prep_double g1 hx1)) (prep_double g2 (prep_double g2 hx2)) ?_ ?_ x4'
      · rw [← mul_nsmul']; exact ptOf_rep _
      · rw [← mul_nsmul']; exact ptOf_rep _
    have key : ((ThStr.new G0).doubleIter (gl X) 2).Same (gl (pr (4 • x1, 4 • x2))) :=
      ((double_same _ d1).trans d2).trans s4
    exact (hker _ (hkum (ptOf_rep _) (ptOf_rep _) (hx 4))).mp (hs.trans (hm.same key))
  have comb : ∀ {A : K} (p q : MPoint A) (k : ℕ), k • p = (k : ℤ) • p + (0 : ℤ) • q := fun p q k => by
    rw [natCast_zsmul, zero_zsmul, add_zero]
  have comb' : ∀ {A : K} (p q : MPoint A) (k : ℕ), k • q = (0 : ℤ) • p + (k : ℤ) • q := fun p q k => by
    rw [natCast_zsmul, zero_zsmul, zero_add]
  refine ⟨E3, E4, fun R =>
    ⟨(E3.completePointX (thetaToMontPoint (splitTheta (O'.baseChange M)).1 (splitTheta ((f (gl R)).baseChange M)).1)).1,
     (E4.completePointX (thetaToMontPoint (splitTheta (O'.baseChange M)).2 (splitTheta ((f (gl R)).baseChange M)).2)).1⟩,
    o, o', fun x => U (gl (pr x)), fun x => V (gl (pr x)), ⟨g3, g4, a3, a4, ?_, ?_, ?_, ?_, ?_, ?_⟩,
    ⟨e, L, m, w, e', L', m', w', M, h.f1, h.f2, hfrm, eO ▸ hM, eO ▸ ho, fun x hx => ?_⟩, ?_⟩
  · refine ⟨h2, hS.left, fun {x} hx => (hS.nu (hkum (ptOf_rep _) (ptOf_rep _) hx) (hne (ptOf_rep _) (ptOf_rep _) hx)).1, ?_, ?_⟩
    · obtain ⟨⟨c, hc, e⟩, -⟩ := hS.null
      obtain ⟨⟨d, hd, e'⟩, -⟩ := hS.same (kummer_null G0) onz z0
      refine ⟨d * c, mul_ne_zero hd hc, ?_⟩
      rw [e', e, mul_assoc, mul_assoc]
    · intro x y hx hy hs hd
      exact (hS.riem (hkum (ptOf_rep _) (ptOf_rep _) hx) (hkum (ptOf_rep _) (ptOf_rep _) hy) (hkum (ptOf_rep _) (ptOf_rep _) hs)
        (hkum (ptOf_rep _) (ptOf_rep _) hd) (hne (ptOf_rep _) (ptOf_rep _) hx) (hne (ptOf_rep _) (ptOf_rep _) hy)
        (hrie (ptOf_rep _) (ptOf_rep _) (ptOf_rep _) (ptOf_rep _) (ptOf_rep _) (ptOf_rep _) (ptOf_rep _) (ptOf_rep _)
          hx hy hs hd)).1
  · refine ⟨h2, hS.right, fun {x} hx => (hS.nu (hkum (ptOf_rep _) (ptOf_rep _) hx) (hne (ptOf_rep _) (ptOf_rep _) hx)).2, ?_, ?_⟩
    · obtain ⟨-, ⟨c, hc, e⟩⟩ := hS.null
      obtain ⟨-, ⟨d, hd, e'⟩⟩ := hS.same (kummer_null G0) onz z0
      refine ⟨d * c, mul_ne_zero hd hc, ?_⟩
      rw [e', e, mul_assoc, mul_assoc]
    · intro x y hx hy hs hd
      exact (hS.riem (hkum (ptOf_rep _) (ptOf_rep _) hx) (hkum (ptOf_rep _) (ptOf_rep _) hy) (hkum (ptOf_rep _) (ptOf_rep _) hs)
        (hkum (ptOf_rep _) (ptOf_rep _) hd) (hne (ptOf_rep _) (ptOf_rep _) hx) (hne (ptOf_rep _) (ptOf_rep _) hy)
        (hrie (ptOf_rep _) (ptOf_rep _) (ptOf_rep _) (ptOf_rep _) (ptOf_rep _) (ptOf_rep _) (ptOf_rep _) (ptOf_rep _)
          hx hy hs hd)).2
  · intro R r1 r2 hr1 hr2 hx
    have hk := hkum hr1 hr2 hx
    have hsame := hsm (R := pr (r1, r2)) (ptOf_rep _) (ptOf_rep _) hr1 hr2 hx
    obtain ⟨⟨c, hc, eU⟩, ⟨d, hd, eV⟩⟩ := hS.same (hkum (ptOf_rep _) (ptOf_rep _) hx) (hne (ptOf_rep _) (ptOf_rep _) hx) hsame
    rw [hI _ hk, ho, eU, eV]
    generalize U (gl (pr (r1, r2))) = u
    generalize V (gl (pr (r1, r2))) = v
    refine ⟨o.1 * (c * d), o'.2 * (c * d), mul_ne_zero hS.left.a (mul_ne_zero hc hd), mul_ne_zero hS.right.b (mul_ne_zero hc hd), ?_⟩
    congr 3
    · simp only [splitTheta, ThPt.tensor, thetaToMontPoint, PtX.mk.injEq]
      constructor <;> ring
    · simp only [splitTheta, ThPt.tensor, thetaToMontPoint, PtX.mk.injEq]
      constructor <;> ring
  · refine quad P p1 p2 rp1 rp2 (fun k => ?_) (by rw [e1]; exact k1)
    rw [comb p1 q1 k, comb p2 q2 k]; exact hxc _ _
  · refine quad Q q1 q2 rq1 rq2 (fun k => ?_) (by rw [e2]; exact k2)
    rw [comb' p1 q1 k, comb' p2 q2 k]; exact hxc _ _
  · intro r1 r2 hx hU hV
    have hnet : KNet G0 (fun r' : MPoint E.E1.A × MPoint E.E2.A =>
        ¬ GlueExc (2 ^ (r + 3 - 1) • p1) (2 ^ (r + 3 - 1) • q1) (2 ^ (r + 3 - 1) • p2) (2 ^ (r + 3 - 1) • q2) r'.1 r'.2)
        fun x => gl (pr x) :=
      ⟨fun hx => hne (ptOf_rep _) (ptOf_rep _) hx, z0, fun hx => .of_kummer hnull (hkum (ptOf_rep _) (ptOf_rep _) hx),
        fun hx hy hs hd => hrie (ptOf_rep _) (ptOf_rep _) (ptOf_rep _) (ptOf_rep _) (ptOf_rep _) (ptOf_rep _) (ptOf_rep _)
          (ptOf_rep _) hx hy hs hd⟩
    have x0 := hx 0 0
    simp only [zero_zsmul, add_zero] at x0
    obtain ⟨a, b, hab⟩ := hex hnet
      (by rw [← e1]; exact hsm (ptOf_rep _) (ptOf_rep _) rp1 rp2 (by simpa using hxc 1 0))
      (by rw [← e2]; exact hsm (ptOf_rep _) (ptOf_rep _) rq1 rq2 (by simpa using hxc 0 1))
      (fun a b => hxc a b) (x := (r1, r2)) (fun a b => hx a b) ((hker _ (hkum (ptOf_rep _) (ptOf_rep _) x0)).mpr ⟨hU, hV⟩)
    obtain ⟨c, d, c1, d1⟩ := hexact (ptOf_rep _) (ptOf_rep _) (hx a b) hab
    have e : ∀ {A : K} (X : MPoint A) (c : ℕ), c • 4 • 2 ^ (r + 3 - 1) • X = ((c * 2 ^ (r + 3 - 1) : ℕ) : ℤ) • 4 • X := by
      intro A X c
      rw [natCast_zsmul, mul_nsmul', smul_comm 4]
    rw [e, e] at c1 d1
    refine ⟨((c * 2 ^ (r + 3 - 1) : ℕ) : ℤ) - a, ((d * 2 ^ (r + 3 - 1) : ℕ) : ℤ) - b, ?_, ?_⟩
    · have c' : r1 + (a • 4 • p1 + b • 4 • q1) = _ := c1
      refine (eq_sub_of_add_eq c').trans ?_
      rw [sub_zsmul, sub_zsmul]
      abel
    · have c' : r2 + (a • 4 • p2 + b • 4 • q2) = _ := d1
      refine (eq_sub_of_add_eq c').trans ?_
      rw [sub_zsmul, sub_zsmul]
      abel
  · rw [← hI _ (hkum (ptOf_rep _) (ptOf_rep _) hx)]
    refine baseChange_same M ?_
    rw [show r + 3 - 3 = r from rfl, ← ef]
    exact hm.same (himg (R := pr x) (ptOf_rep _) (ptOf_rep _) hx).symm
  · intro images
    have hl := hloop (images.map gl)
    rw [List.length_map] at hl
    have hn0 : ¬ (r + 3 = 0) := by omega
    rw [productIsogenyNaive, if_neg hn0]
    simp only [hgl, List.map_append, List.map_cons, List.map_nil, List.append_assoc, List.cons_append, List.nil_append, e1, e2]
    rw [show r + 3 - 1 = r + 2 from rfl, hl]
    simp only [Option.bind_eq_bind, Option.bind_some, splittingIso, ThStr.new, hM, Option.map_some, splitToProduct]
    rw [ho, n3, n4]
    simp only [Option.bind_some, List.map_append, List.map_map, List.map_cons, List.map_nil]
    rw [List.take_left' (by simp)]
    simp only [List.map_map]
    rfl

/-- Exceptional pairs are recognised by their doubles. -/
theorem exc_congr {A A' : K} {p1 q1 r1 s1 : MPoint A} {p2 q2 r2 s2 : MPoint A'} (h1 : 2 • r1 = 2 • s1) (h2 : 2 • r2 = 2 • s2)
    (h : GlueExc p1 q1 p2 q2 r1 r2) : GlueExc p1 q1 p2 q2 s1 s2 := by
  simpa only [GlueExc, ← h1, ← h2] using h

/-- Only the points of the kernel are sent to infinity in both factors. -/
theorem ProdNet.exact' [RootOps K] {E : EProd K} {p1 q1 : MPoint E.E1.A} {p2 q2 : MPoint E.E2.A} {n : Nat} {E3 E4 : Crv K}
    {F : CPt K → CPt K} {o o' : K × K} {U V : MPoint E.E1.A × MPoint E.E2.A → K × K}
    (h : ProdNet E p1 q1 p2 q2 n E3 E4 F o o' U V) (hn : 1 ≤ n) (b1 : IsBasis (2 ^ (n + 2)) p1 q1)
    (b2 : IsBasis (2 ^ (n + 2)) p2 q2) {r1 : MPoint E.E1.A} {r2 : MPoint E.E2.A}
    (hx : ¬ GlueExc (2 ^ (n - 1) • p1) (2 ^ (n - 1) • q1) (2 ^ (n - 1) • p2) (2 ^ (n - 1) • q2) r1 r2)
    (hU : ∃ c, c ≠ 0 ∧ U (r1, r2) = (c * o.1, c * o.2)) (hV : ∃ c, c ≠ 0 ∧ V (r1, r2) = (c * o'.1, c * o'.2)) :
    ∃ a b : ℤ, r1 = a • 4 • p1 + b • 4 • q1 ∧ r2 = a • 4 • p2 + b • 4 • q2 := by
  by_cases hall : ∀ a b : ℤ, ¬ GlueExc (2 ^ (n - 1) • p1) (2 ^ (n - 1) • q1) (2 ^ (n - 1) • p2) (2 ^ (n - 1) • q2)
      (r1 + (a • 4 • p1 + b • 4 • q1)) (r2 + (a • 4 • p2 + b • 4 • q2))
  · exact h.exact hall hU hV
  exfalso
  push Not at hall
  obtain ⟨a, b, hab⟩ := hall
  have hxc := exc_comb hn b1 b2
  have f4 : ∀ {A : K} (X : MPoint A) (a : ℤ), a • 4 • X = (a * 4) • X := fun X a => by rw [mul_zsmul, ofNat_zsmul]
  -- the double of an exceptional pair has order two
  have tor : ∀ {A : K} {p q : MPoint A}, IsBasis (2 ^ (n + 2)) p q → ∀ c d : ℤ,
      2 • (c • 4 • 2 ^ (n - 1) • p + d • 4 • 2 ^ (n - 1) • q) = 0 := by
    intro A p q hb c d
    have e : 4 * 2 ^ (n - 1) = 2 ^ (n + 1) := by rw [show n + 1 = (n - 1) + 2 by omega, pow_add]; ring
    rw [← mul_nsmul', ← mul_nsmul', e, nsmul_add]
    simp only [← natCast_zsmul, ← mul_zsmul]
    refine (hb _ _).mpr ⟨⟨c, ?_⟩, ⟨d, ?_⟩⟩ <;> push_cast <;> ring
  have t1 := tor b1 0 1
  have t2 := tor b1 1 1
  have t3 := tor b2 0 1
  have t4 := tor b2 1 1
  simp only [zero_zsmul, one_zsmul, zero_add] at t1 t2 t3 t4
  have hd : 2 • 2 • (r1 + (a • 4 • p1 + b • 4 • q1)) = 0 ∧ 2 • 2 • (r2 + (a • 4 • p2 + b • 4 • q2)) = 0 := by
    rcases hab with ⟨e1, e2⟩ | ⟨e1, e2⟩
    · rw [e1, e2]; exact ⟨t1, t4⟩
    · rw [e1, e2]; exact ⟨t2, t3⟩
  -- so the double of `r` has no exceptional translate
  have hall : ∀ c d : ℤ, ¬ GlueExc (2 ^ (n - 1) • p1) (2 ^ (n - 1) • q1) (2 ^ (n - 1) • p2) (2 ^ (n - 1) • q2)
      (2 • r1 + (c • 4 • p1 + d • 4 • q1)) (2 • r2 + (c • 4 • p2 + d • 4 • q2)) := by
    intro c d hcd
    have e : ∀ {A : K} {r p q : MPoint A}, 2 • 2 • (r + (a • 4 • p + b • 4 • q)) = 0 →
        2 • (2 • r + (c • 4 • p + d • 4 • q)) = 2 • (((c - 2 * a) * 4) • p + ((d - 2 * b) * 4) • q) := by
      intro A r p q h0
      have : 2 • (2 • r + (c • 4 • p + d • 4 • q)) = 2 • 2 • (r + (a • 4 • p + b • 4 • q)) +
          2 • ((c - 2 * a) • 4 • p + (d - 2 * b) • 4 • q) := by
        simp only [nsmul_add, sub_zsmul, mul_zsmul, ofNat_zsmul]
        abel
      rw [this, h0, zero_add, f4, f4]
    exact hxc _ _ (exc_congr (e hd.1) (e hd.2) hcd)
  have x2 := hall 0 0
  simp only [zero_zsmul, add_zero] at x2
  have x0 := hxc 0 0
  simp only [zero_zsmul, add_zero] at x0
  have dbl : ∀ {o : K × K} {θ}, Net o (fun r : MPoint E.E1.A × MPoint E.E2.A =>
      ¬ GlueExc (2 ^ (n - 1) • p1) (2 ^ (n - 1) • q1) (2 ^ (n - 1) • p2) (2 ^ (n - 1) • q2) r.1 r.2) θ →
      (∃ c, c ≠ 0 ∧ θ (r1, r2) = (c * o.1, c * o.2)) → ∃ c, c ≠ 0 ∧ θ (2 • r1, 2 • r2) = (c * o.1, c * o.2) := by
    intro o θ hN hθ
    have e : (r1, r2) + (r1, r2) = (2 • r1, 2 • r2) := by rw [Prod.mk_add_mk, two_nsmul, two_nsmul]
    have := (hN.riem (x := (r1, r2)) (y := (r1, r2)) hx hx (by rw [e]; exact x2) (by rw [sub_self]; exact x0)).null
      hN.two hN.null hθ (hN.ne hx) (hN.ne (by rw [e]; exact x2))
    rw [e] at this
    obtain ⟨c, hc, e1⟩ := this
    obtain ⟨d, hd, e2⟩ := hθ
    refine ⟨c * d, mul_ne_zero hc hd, ?_⟩
    rw [e1, e2, mul_assoc, mul_assoc]
  obtain ⟨c, d, e1, e2⟩ := h.exact hall (dbl h.netU hU) (dbl h.netV hV)
  -- and `r` would be exceptional itself, up to the kernel
  have e : ∀ {A : K} {r p q : MPoint A}, 2 • r = c • 4 • p + d • 4 • q →
      2 • (r + (a • 4 • p + b • 4 • q)) = 2 • ((2 * c + a * 4) • p + (2 * d + b * 4) • q) := by
    intro A r p q h0
    rw [nsmul_add, h0]
    simp only [f4, ← natCast_zsmul, zsmul_add, ← mul_zsmul]
    rw [add_add_add_comm, ← add_zsmul, ← add_zsmul]
    congr 2 <;> push_cast <;> ring
  exact hxc _ _ (exc_congr (e e1) (e e2) hab)

end Festa
