import Verif.Lemmas.RiemannChain
/-! Which points an isogeny step sends to the null point. -/
namespace Festa
variable {K : Type*} [Field K]

/-- The products of coordinates, from the ten forms. -/
private theorem wf_products (h2 : (2 : K) ≠ 0) {S D S' D' : ThPt K} {l : K} (h : ∀ j, wf j S D = l * wf j S' D') :
    (S.X * D.X = l * (S'.X * D'.X) ∧ S.Y * D.Y = l * (S'.Y * D'.Y) ∧ S.Z * D.Z = l * (S'.Z * D'.Z) ∧
      S.T * D.T = l * (S'.T * D'.T)) ∧
    (S.X * D.Y + S.Y * D.X = l * (S'.X * D'.Y + S'.Y * D'.X) ∧ S.X * D.Z + S.Z * D.X = l * (S'.X * D'.Z + S'.Z * D'.X) ∧
      S.X * D.T + S.T * D.X = l * (S'.X * D'.T + S'.T * D'.X)) ∧
    S.Y * D.Z + S.Z * D.Y = l * (S'.Y * D'.Z + S'.Z * D'.Y) ∧ S.Y * D.T + S.T * D.Y = l * (S'.Y * D'.T + S'.T * D'.Y) ∧
      S.Z * D.T + S.T * D.Z = l * (S'.Z * D'.T + S'.T * D'.Z) := by
  have h0 := h 0; have h1 := h 1; have h3 := h 2; have h4 := h 3; have h5 := h 4
  have h6 := h 5; have h7 := h 6; have h8 := h 7; have h9 := h 8; have h10 := h 9
  simp only [wf] at h0 h1 h3 h4 h5 h6 h7 h8 h9 h10
  have n4 := four_ne h2
  refine ⟨⟨?_, ?_, ?_, ?_⟩, ⟨?_, ?_, ?_⟩, ?_, ?_, ?_⟩
  · exact mul_left_cancel₀ n4 (by linear_combination h0 + h1 + h3 + h4)
  · exact mul_left_cancel₀ n4 (by linear_combination h0 - h1 + h3 - h4)
  · exact mul_left_cancel₀ n4 (by linear_combination h0 + h1 - h3 - h4)
  · exact mul_left_cancel₀ n4 (by linear_combination h0 - h1 - h3 + h4)
  · exact mul_left_cancel₀ h2 (by linear_combination h5 + h6)
  · exact mul_left_cancel₀ h2 (by linear_combination h7 + h8)
  · exact mul_left_cancel₀ h2 (by linear_combination h9 + h10)
  · exact mul_left_cancel₀ h2 (by linear_combination h9 - h10)
  · exact mul_left_cancel₀ h2 (by linear_combination h7 - h8)
  · exact mul_left_cancel₀ h2 (by linear_combination h5 - h6)

theorem ThPt.ne_zero_iff {X : ThPt K} : X ≠ ThPt.zero ↔ X.X ≠ 0 ∨ X.Y ≠ 0 ∨ X.Z ≠ 0 ∨ X.T ≠ 0 := by
  constructor
  · intro h
    by_contra hc
    push Not at hc
    exact h (by ext <;> simp [ThPt.zero, hc.1, hc.2.1, hc.2.2.1, hc.2.2.2])
  · rintro h rfl
    simp [ThPt.zero] at h

/-- The ten forms of `S`, `D` are those of a square: both are that point. -/
theorem same_of_wf_square (h2 : (2 : K) ≠ 0) {S D F : ThPt K} {l : K} (hl : l ≠ 0) (hF : F ≠ ThPt.zero)
    (h : ∀ j, wf j S D = l * wf j F F) : F.Same S := by
  obtain ⟨⟨x, y, z, t⟩, ⟨xy, xz, xt⟩, yz, yt, zt⟩ := wf_products h2 h
  have key : ∀ {a b c d p q : K}, a * c = l * (p * p) → b * d = l * (q * q) → a * d + b * c = l * (p * q + q * p) →
      b * c = l * (p * q) := by
    intro a b c d p q e1 e2 e3
    have : (a * d - b * c) ^ 2 = 0 := by
      linear_combination (a * d + b * c + l * (p * q + q * p)) * e3 - 4 * (b * d) * e1 - 4 * l * (p * p) * e2
    have := pow_eq_zero_iff (two_ne_zero) |>.mp this
    exact mul_left_cancel₀ h2 (by linear_combination e3 - this)
  have go : ∀ {c p : K}, p ≠ 0 → S.X * c = l * (p * F.X) → S.Y * c = l * (p * F.Y) → S.Z * c = l * (p * F.Z) →
      S.T * c = l * (p * F.T) → (∃ a, a * c = l * (p * p)) → F.Same S := by
    rintro c p hp a1 a2 a3 a4 ⟨a, ha⟩
    have hc : c ≠ 0 := by
      rintro rfl
      rw [mul_zero] at ha
      exact mul_ne_zero hl (mul_ne_zero hp hp) ha.symm
    refine ⟨l * p / c, div_ne_zero (mul_ne_zero hl hp) hc, ?_⟩
    ext <;> simp only [ThPt.scale]
    all_goals rw [div_mul_eq_mul_div, eq_div_iff hc]
    · linear_combination a1
    · linear_combination a2
    · linear_combination a3
    · linear_combination a4
  rcases ThPt.ne_zero_iff.mp hF with n | n | n | n
  · exact go n x (key x y xy) (key x z xz) (key x t xt) ⟨_, x⟩
  · exact go n (key y x (by linear_combination xy)) y (key y z yz) (key y t yt) ⟨_, y⟩
  · exact go n (key z x (by linear_combination xz)) (key z y (by linear_combination yz)) z (key z t zt) ⟨_, z⟩
  · exact go n (key t x (by linear_combination xt)) (key t y (by linear_combination yt)) (key t z (by linear_combination zt)) t
      ⟨_, t⟩

/-- The difference determines the sum. -/
theorem Riem.unique (h2 : (2 : K) ≠ 0) {O X Y S S' D : ThPt K} (hO : ∀ j, wf j O O ≠ 0) (h : Riem O X Y S D)
    (h' : Riem O X Y S' D) (hD : D ≠ ThPt.zero) : S.Same S' := by
  obtain ⟨c, hc, h⟩ := h
  obtain ⟨d, hd, h'⟩ := h'
  have e : ∀ j, wf j S' D = d / c * wf j S D := fun j => mul_right_cancel₀ (hO j) (by
    rw [mul_assoc, h j, h' j]; field_simp)
  refine ⟨d / c, div_ne_zero hd hc, ?_⟩
  obtain ⟨⟨x, y, z, t⟩, ⟨xy, xz, xt⟩, yz, yt, zt⟩ := wf_products h2 e
  generalize d / c = l at *
  have z0 : ∀ {s s' u : K}, u ≠ 0 → s' * u = l * (s * u) → s' = l * s := fun hu e =>
    mul_right_cancel₀ hu (by rw [e]; ring)
  have z1 : ∀ {s s' r r' u v : K}, u ≠ 0 → s' = l * s → s' * v + r' * u = l * (s * v + r * u) → r' = l * r := by
    intro s s' r r' u v hu e1 e2
    exact mul_right_cancel₀ hu (by rw [e1] at e2; linear_combination e2)
  have z2 : ∀ {s s' r r' u v : K}, u ≠ 0 → s' = l * s → r' * u + s' * v = l * (r * u + s * v) → r' = l * r := by
    intro s s' r r' u v hu e1 e2
    exact mul_right_cancel₀ hu (by rw [e1] at e2; linear_combination e2)
  rcases ThPt.ne_zero_iff.mp hD with n | n | n | n
  · have a := z0 n x
    ext
    exacts [a, z1 n a xy, z1 n a xz, z1 n a xt]
  · have a := z0 n y
    ext
    exacts [z2 n a xy, a, z1 n a yz, z1 n a yt]
  · have a := z0 n z
    ext
    exacts [z2 n a xz, z2 n a yz, a, z1 n a zt]
  · have a := z0 n t
    ext
    exacts [z2 n a xt, z2 n a yt, z2 n a zt, a]

/-- An even number of signs changed. -/
def ThPt.flips (i j : Bool) (O : ThPt K) : ThPt K :=
  match i, j with
  | false, false => O
  | true, false => O.flip true
  | false, true => O.flip false
  | true, true => ⟨O.X, -O.Y, -O.Z, O.T⟩

/-- The signs of the ten forms. -/
def wsg (i j : Bool) (k : Fin 10) : K :=
  let a : K := if i then -1 else 1
  let b : K := if j then -1 else 1
  match k with
  | 0 => 1 | 1 => 1 | 2 => 1 | 3 => 1
  | 4 => a | 5 => a
  | 6 => b | 7 => b
  | 8 => a * b | 9 => a * b

theorem wf_flips (i j : Bool) (O : ThPt K) (k : Fin 10) : wf k (O.flips i j) (O.flips i j) = wsg i j k * wf k O O := by
  cases i <;> cases j <;> fin_cases k <;> simp only [ThPt.flips, ThPt.flip, wf, wsg, if_true, if_false, Bool.false_eq_true] <;> ring

theorem wsg_sq (i j : Bool) (k : Fin 10) : wsg i j k * wsg i j k = (1 : K) := by
  cases i <;> cases j <;> fin_cases k <;> simp [wsg]

theorem wsg_mul (i j i' j' : Bool) (k : Fin 10) : wsg i j k * wsg i' j' k = (wsg (i ^^ i') (j ^^ j') k : K) := by
  cases i <;> cases j <;> cases i' <;> cases j' <;> fin_cases k <;> simp [wsg]

theorem flips_ne_zero (i j : Bool) {O : ThPt K} (h : O ≠ ThPt.zero) : O.flips i j ≠ ThPt.zero := by
  rw [ThPt.ne_zero_iff] at *
  cases i <;> cases j <;> simpa [ThPt.flips, ThPt.flip] using h

/-- Adding two points of order two of the kernel. -/
theorem Riem.flips (h2 : (2 : K) ≠ 0) {O X Y S D : ThPt K} (hO : ∀ j, wf j O O ≠ 0) (h : Riem O X Y S D)
    {i j i' j' : Bool} (hX : (O.flips i j).Same X) (hY : (O.flips i' j').Same Y) :
    (O.flips (i ^^ i') (j ^^ j')).Same S := by
  have hz : O ≠ ThPt.zero := by
    rintro rfl
    exact hO 0 (by simp [wf, ThPt.zero])
  have h := h.same (.refl O) hX.symm hY.symm (.refl S) (.refl D)
  obtain ⟨c, hc, h⟩ := h
  refine same_of_wf_square h2 (D := D) hc (flips_ne_zero _ _ hz) fun k => mul_right_cancel₀ (hO k) ?_
  rw [h k, wf_flips, wf_flips, wf_flips, ← wsg_mul]
  ring

/-- Points with the squares of the null point are the null point with an even number of signs changed. -/
theorem flips_of_sq (h2 : (2 : K) ≠ 0) {O X : ThPt K} (hO : ∀ j, wf j O O ≠ 0) (h6 : SixNZ O) (hX : HasDbl O X)
    (hs : O.sqTheta.Same X.sqTheta) : ∃ i j, (O.flips i j).Same X := by
  obtain ⟨l, hl, hs⟩ := hs
  have n4 := four_ne h2
  simp only [ThPt.sqTheta, ThPt.had, ThPt.scale, ThPt.mk.injEq] at hs
  obtain ⟨s0, s1, s2, s3⟩ := hs
  have ex : X.X ^ 2 = l * O.X ^ 2 := mul_left_cancel₀ n4 (by linear_combination s0 + s1 + s2 + s3)
  have ey : X.Y ^ 2 = l * O.Y ^ 2 := mul_left_cancel₀ n4 (by linear_combination s0 - s1 + s2 - s3)
  have ez : X.Z ^ 2 = l * O.Z ^ 2 := mul_left_cancel₀ n4 (by linear_combination s0 + s1 - s2 - s3)
  have et : X.T ^ 2 = l * O.T ^ 2 := mul_left_cancel₀ n4 (by linear_combination s0 - s1 - s2 + s3)
  obtain ⟨m, hm, rfl⟩ : ∃ m, m ≠ 0 ∧ l = m ^ 2 := by
    have f : ∀ {a b : K}, a ≠ 0 → b ^ 2 = l * a ^ 2 → ∃ m, m ≠ 0 ∧ l = m ^ 2 := by
      intro a b ha e
      refine ⟨b / a, div_ne_zero (fun h0 => ?_) ha, ?_⟩
      · rw [h0] at e
        simp [hl, ha] at e
      · rw [div_pow, eq_div_iff (pow_ne_zero 2 ha), e]
    by_cases h0 : O.X = 0
    · exact f (h6.coords.1 h0).1 ey
    · exact f h0 ex
  obtain ⟨W, hW⟩ := hX
  have w0 := hW 0; have w1 := hW 1; have w2 := hW 2; have w3 := hW 3; have w4 := hW 4
  have o0 := hO 0; have o1 := hO 1; have o2 := hO 2; have o3 := hO 3
  clear hO hW s0 s1 s2 s3 h6
  obtain ⟨a, b, c, d⟩ := O
  obtain ⟨x, y, z, t⟩ := X
  obtain ⟨p, q, r, s⟩ := W
  simp only [wf] at *
  have sg : ∀ {u v : K}, u ^ 2 = m ^ 2 * v ^ 2 → ∃ e : K, (e = 1 ∨ e = -1) ∧ u = e * (m * v) := by
    intro u v h
    rw [← mul_pow, sq_eq_sq_iff_eq_or_eq_neg] at h
    rcases h with h | h
    · exact ⟨1, .inl rfl, by rw [h, one_mul]⟩
    · exact ⟨-1, .inr rfl, by rw [h, neg_one_mul]⟩
  obtain ⟨e1, h1, rfl⟩ := sg ex
  obtain ⟨e2, h2', rfl⟩ := sg ey
  obtain ⟨e3, h3, rfl⟩ := sg ez
  obtain ⟨e4, h4, rfl⟩ := sg et
  have even : ∀ e1 e2 e3 e4 : K, (e1 = 1 ∨ e1 = -1) → (e2 = 1 ∨ e2 = -1) → (e3 = 1 ∨ e3 = -1) → (e4 = 1 ∨ e4 = -1) →
      e1 * e2 * e3 * e4 = 1 → ∃ i j, (ThPt.flips i j ⟨a, b, c, d⟩).Same ⟨e1 * (m * a), e2 * (m * b), e3 * (m * c), e4 * (m * d)⟩ := by
    have ne : ¬ (-1 : K) = 1 := fun h => h2 (by linear_combination -h)
    rintro e1 e2 e3 e4 (rfl | rfl) (rfl | rfl) (rfl | rfl) (rfl | rfl) h <;>
      simp only [mul_one, mul_neg, neg_neg, ne] at h
    · exact ⟨false, false, m, hm, by simp [ThPt.flips, ThPt.scale]⟩
    · exact ⟨false, true, m, hm, by simp [ThPt.flips, ThPt.flip, ThPt.scale]⟩
    · exact ⟨true, false, m, hm, by simp [ThPt.flips, ThPt.flip, ThPt.scale]⟩
    · exact ⟨true, true, m, hm, by simp [ThPt.flips, ThPt.scale]⟩
    · exact ⟨true, true, -m, neg_ne_zero.mpr hm, by simp [ThPt.flips, ThPt.scale]⟩
    · exact ⟨true, false, -m, neg_ne_zero.mpr hm, by simp [ThPt.flips, ThPt.flip, ThPt.scale]⟩
    · exact ⟨false, true, -m, neg_ne_zero.mpr hm, by simp [ThPt.flips, ThPt.flip, ThPt.scale]⟩
    · exact ⟨false, false, -m, neg_ne_zero.mpr hm, by simp [ThPt.flips, ThPt.scale]⟩
  have ng : ∀ {e : K}, (e = 1 ∨ e = -1) → (-e = 1 ∨ -e = -1) := by
    rintro e (rfl | rfl)
    · exact .inr rfl
    · exact .inl (neg_neg _)
  have sq1 : ∀ {e : K}, (e = 1 ∨ e = -1) → e * e = 1 := by
    rintro e (rfl | rfl) <;> norm_num
  have par : e1 * e2 * e3 * e4 = 1 ∨ e1 * e2 * e3 * e4 = -1 := by
    refine mul_self_eq_one_iff.mp ?_
    linear_combination (e2 * e2 * (e3 * e3) * (e4 * e4)) * sq1 h1 + (e3 * e3) * (e4 * e4) * sq1 h2' + (e4 * e4) * sq1 h3 + sq1 h4
  rcases par with par | par
  · exact even _ _ _ _ h1 h2' h3 h4 par
  by_cases ha : a = 0
  · have := even (-e1) e2 e3 e4 (ng h1) h2' h3 h4 (by linear_combination -par)
    rw [ha, mul_zero, mul_zero] at *
    exact this
  by_cases hb : b = 0
  · have := even e1 (-e2) e3 e4 h1 (ng h2') h3 h4 (by linear_combination -par)
    rw [hb, mul_zero, mul_zero] at *
    exact this
  by_cases hc : c = 0
  · have := even e1 e2 (-e3) e4 h1 h2' (ng h3) h4 (by linear_combination -par)
    rw [hc, mul_zero, mul_zero] at *
    exact this
  by_cases hd : d = 0
  · have := even e1 e2 e3 (-e4) h1 h2' h3 (ng h4) (by linear_combination -par)
    rw [hd, mul_zero, mul_zero] at *
    exact this
  exfalso
  have q1 := sq1 h1; have q2 := sq1 h2'; have q3 := sq1 h3; have q4 := sq1 h4
  have f : ∀ {w k g : K}, k ≠ 0 → w * k = 4 * g ^ 2 → g = m ^ 2 * k → w = 4 * m ^ 4 * k := by
    intro w k g hk e1 e2
    exact mul_right_cancel₀ hk (by rw [e1, e2]; ring)
  have v0 := f o0 w0 (by linear_combination m ^ 2 * (a ^ 2 * q1 + b ^ 2 * q2 + c ^ 2 * q3 + d ^ 2 * q4))
  have v1 := f o1 w1 (by linear_combination m ^ 2 * (a ^ 2 * q1 - b ^ 2 * q2 + c ^ 2 * q3 - d ^ 2 * q4))
  have v2 := f o2 w2 (by linear_combination m ^ 2 * (a ^ 2 * q1 + b ^ 2 * q2 - c ^ 2 * q3 - d ^ 2 * q4))
  have v3 := f o3 w3 (by linear_combination m ^ 2 * (a ^ 2 * q1 - b ^ 2 * q2 - c ^ 2 * q3 + d ^ 2 * q4))
  have hp : p = 4 * m ^ 4 * a := mul_right_cancel₀ ha (mul_left_cancel₀ n4 (by linear_combination v0 + v1 + v2 + v3))
  have hq : q = 4 * m ^ 4 * b := mul_right_cancel₀ hb (mul_left_cancel₀ n4 (by linear_combination v0 - v1 + v2 - v3))
  have hr : r = 4 * m ^ 4 * c := mul_right_cancel₀ hc (mul_left_cancel₀ n4 (by linear_combination v0 + v1 - v2 - v3))
  have hs : s = 4 * m ^ 4 * d := mul_right_cancel₀ hd (mul_left_cancel₀ n4 (by linear_combination v0 - v1 - v2 + v3))
  have e34 : e3 * e4 = -(e1 * e2) := by
    linear_combination (e1 * e2) * par - (e2 * e2 * (e3 * e4)) * q1 - (e3 * e4) * q2
  have e12 : (e1 * e2) ^ 2 = 1 := by linear_combination e2 ^ 2 * q1 + q2
  rw [hp, hq, hr, hs] at w4
  have key : 4 * m ^ 4 * (4 * (4 * (a * b * c * d))) = 0 := by
    linear_combination w4 + 16 * m ^ 4 * (e3 * e4 * c ^ 2 * d ^ 2 + 2 * e1 * e2 * (a * b * c * d) - e1 * e2 * c ^ 2 * d ^ 2) * e34
      + 16 * m ^ 4 * (a * b - c * d) ^ 2 * e12
  have := mul_ne_zero (mul_ne_zero n4 (pow_ne_zero 4 hm)) (mul_ne_zero n4 (mul_ne_zero n4 (mul_ne_zero (mul_ne_zero (mul_ne_zero ha hb) hc) hd)))
  exact this key

/-- None of the ten even constants vanishes. -/
theorem ten_nz {O : ThPt K} (hO : O.sqTheta.NZ) (h6 : SixNZ O) (j : Fin 10) : wf j O O ≠ 0 := by
  obtain ⟨n0, n1, n2, n3⟩ := hO
  have s := sqTheta_wf O
  rw [s] at n0 n1 n2 n3
  fin_cases j
  exacts [n0, n1, n2, n3, h6.h4, h6.h5, h6.h6, h6.h7, h6.h8, h6.h9]

/-- A step sends just the points of its kernel to the null point. -/
theorem flips_of_isoImage (h2 : (2 : K) ≠ 0) {O T1 T2 X : ThPt K} (hO : O.sqTheta.NZ) (h6 : SixNZ O) (hk : KerDual O T1 T2)
    (hX : HasDbl O X) (h : (isoNull O T1 T2).Same (isoImage O T1 T2 X)) : ∃ i j, (O.flips i j).Same X := by
  refine flips_of_sq h2 (ten_nz hO h6) h6 hX ?_
  have h := (isoImage_null' hO hk).symm.trans h
  rw [isoImage_eq' hO hk, isoImage_eq' hO hk] at h
  obtain ⟨c, hc, e⟩ := same_of_had h2 h
  have hn := hk.nz hO
  refine ⟨c, hc, ?_⟩
  simp only [ThPt.div, ThPt.scale, ThPt.mk.injEq] at e
  obtain ⟨e1, e2, e3, e4⟩ := e
  have f : ∀ {u v w : K}, w ≠ 0 → u / w = c * (v / w) → u = c * v := by
    intro u v w hw e
    rw [div_eq_iff hw, mul_assoc, div_mul_cancel₀ _ hw] at e
    exact e
  ext
  exacts [f hn.X e1, f hn.Y e2, f hn.Z e3, f hn.T e4]

/-- A map of `G` to theta points over `O`, defined outside some exceptions, that carries sums and
differences over. -/
structure KNet {G : Type*} [AddCommGroup G] (O : ThPt K) (N : G → Prop) (θ : G → ThPt K) : Prop where
  ne : ∀ {x}, N x → θ x ≠ ThPt.zero
  zero : O.Same (θ 0)
  dbl : ∀ {x}, N x → HasDbl O (θ x)
  riem : ∀ {x y}, N x → N y → N (x + y) → N (x - y) → Riem O (θ x) (θ y) (θ (x + y)) (θ (x - y))

namespace KNet
variable {G : Type*} [AddCommGroup G] {O : ThPt K} {N : G → Prop} {θ : G → ThPt K}

theorem step (h2 : (2 : K) ≠ 0) {T1 T2 : ThPt K} (hO : O.sqTheta.NZ) (h6 : SixNZ O) (hk : KerDual O T1 T2) (h : KNet O N θ) :
    KNet (isoNull O T1 T2) N fun x => isoImage O T1 T2 (θ x) where
  ne hx := isoImage_ne_zero' h2 hO hk (h.ne hx)
  zero := (isoImage_null' hO hk).trans (isoImage_same h.zero)
  dbl hx := (h.dbl hx).isoImage h2 hO h6 hk
  riem hx hy hs hd := (h.riem hx hy hs hd).isoImage h2 hO h6 hk (h.dbl hx) (h.dbl hy)

theorem two (h : KNet O N θ) (h0 : N 0) {x : G} (hx : N x) (h2x : N (2 • x)) : Riem O (θ x) (θ x) (θ (2 • x)) O := by
  have := h.riem hx hx (by rwa [← two_nsmul]) (by rwa [sub_self])
  rw [← two_nsmul, sub_self] at this
  exact this.same (.refl _) (.refl _) (.refl _) (.refl _) h.zero.symm

/-- Adding points of the kernel of a step. -/
theorem add_flip (h2 : (2 : K) ≠ 0) (h : KNet O N θ) (hO : ∀ j, wf j O O ≠ 0) {x y : G} (hx : N x) (hy : N y)
    (hs : N (x + y)) (hd : N (x - y)) {i j i' j' : Bool} (hX : (O.flips i j).Same (θ x)) (hY : (O.flips i' j').Same (θ y)) :
    (O.flips (i ^^ i') (j ^^ j')).Same (θ (x + y)) :=
  (h.riem hx hy hs hd).flips h2 hO hX hY

/-- What a step sends to the null point is sent there already by the map before it, up to the kernel of the step. -/
theorem exact (h2 : (2 : K) ≠ 0) (h : KNet O N θ) {T1 T2 : ThPt K} (hO : O.sqTheta.NZ) (h6 : SixNZ O) (hk : KerDual O T1 T2)
    {u v x : G} (hu : (O.flip true).Same (θ u)) (hv : (O.flip false).Same (θ v)) (nu : N u) (nv : N v)
    (hx : ∀ a b : ℤ, N (x + (a • u + b • v))) (hi : (isoNull O T1 T2).Same (isoImage O T1 T2 (θ x))) :
    ∃ a b : ℤ, O.Same (θ (x + (a • u + b • v))) := by
  have ten := ten_nz hO h6
  have x00 : N x := by simpa using hx 0 0
  have xp0 : N (x + u) := by simpa using hx 1 0
  have xm0 : N (x - u) := by simpa [sub_eq_add_neg] using hx (-1) 0
  have x0p : N (x + v) := by simpa using hx 0 1
  have x0m : N (x - v) := by simpa [sub_eq_add_neg] using hx 0 (-1)
  have xpp : N (x + u + v) := by simpa [add_assoc] using hx 1 1
  have xpm : N (x + u - v) := by simpa [sub_eq_add_neg, add_assoc] using hx 1 (-1)
  have hu : (O.flips true false).Same (θ u) := hu
  have hv : (O.flips false true).Same (θ v) := hv
  obtain ⟨i, j, hij⟩ := flips_of_isoImage h2 hO h6 hk (h.dbl x00) hi
  cases i <;> cases j
  · have hij : O.Same (θ x) := hij
    exact ⟨0, 0, by simpa using hij⟩
  · have : O.Same (θ (x + v)) := h.add_flip h2 ten x00 nv x0p x0m hij hv
    exact ⟨0, 1, by simpa using this⟩
  · have : O.Same (θ (x + u)) := h.add_flip h2 ten x00 nu xp0 xm0 hij hu
    exact ⟨1, 0, by simpa using this⟩
  · have := h.add_flip h2 ten x00 nu xp0 xm0 hij hu
    have : O.Same (θ (x + u + v)) := h.add_flip h2 ten xp0 nv xpp xpm this hv
    exact ⟨1, 1, by simpa [← add_assoc] using this⟩

theorem double (h2 : (2 : K) ≠ 0) (h : KNet O N θ) (hO : ThNull O) (h6 : SixNZ O) (h0 : N 0) {x : G} (hx : N x)
    (h2x : N (2 • x)) {X : ThPt K} (hX : OnKummer O X) (e : (θ x).Same X) : (θ (2 • x)).Same ((ThStr.new O).double X) := by
  refine Riem.unique h2 (ten_nz hO.dual h6) ((h.two h0 hx h2x).same (.refl _) e e (.refl _) (.refl _)) (Riem.double h2 hO hX)
    fun h0 => hO.nz.X (by rw [h0]; rfl)

theorem doubleIter (h2 : (2 : K) ≠ 0) (h : KNet O N θ) (hO : ThNull O) (h6 : SixNZ O) {T1 T2 : ThPt K} (hk : Kernel8 O T1 T2)
    {x : G} (hx : ∀ k : ℕ, N (k • x)) (m : Nat) {X : ThPt K} (hX : OnKummer O X) (e : (θ x).Same X) :
    (θ (2 ^ m • x)).Same ((ThStr.new O).doubleIter X m) := by
  induction m generalizing x X with
  | zero => rw [pow_zero, one_nsmul]; exact e
  | succ m ih =>
    have x2 : ∀ k : ℕ, N (k • 2 • x) := fun k => by rw [← mul_nsmul']; exact hx _
    have := ih x2 (kummer_doubleIter h2 hO hk 1 hX)
      (h.double h2 hO h6 (by simpa using hx 0) (by simpa using hx 1) (hx 2) hX e)
    rw [← mul_nsmul', ← pow_succ] at this
    exact this

theorem flip_true (h2 : (2 : K) ≠ 0) (h : KNet O N θ) (h6 : SixNZ O) {x : G} (h0 : N 0) (hx : N x) (h2x : N (2 • x))
    (hy : (θ x).Y = 0) (ht : (θ x).T = 0) : (O.flip true).Same (θ (2 • x)) :=
  double_xz h2 h6 (h.two h0 hx h2x) hy ht (h.ne h2x)

theorem flip_false (h2 : (2 : K) ≠ 0) (h : KNet O N θ) (h6 : SixNZ O) {x : G} (h0 : N 0) (hx : N x) (h2x : N (2 • x))
    (hz : (θ x).Z = 0) (ht : (θ x).T = 0) : (O.flip false).Same (θ (2 • x)) :=
  double_xy h2 h6 (h.two h0 hx h2x) hz ht (h.ne h2x)

end KNet

theorem same_zeros {X Y : ThPt K} (h : X.Same Y) : (Y.Y = 0 → X.Y = 0) ∧ (Y.Z = 0 → X.Z = 0) ∧ (Y.T = 0 → X.T = 0) := by
  obtain ⟨c, hc, rfl⟩ := h
  simp [ThPt.scale, hc]

/-- One step of the chain, `T1` and `T2` being `2^r` times the kernel points. -/
theorem KNet.step_exact {G : Type*} [AddCommGroup G] {O : ThPt K} {N : G → Prop} {θ : G → ThPt K} (h2 : (2 : K) ≠ 0)
    (h : KNet O N θ) (hO : ThNull O) (h6 : SixNZ O) {K1 K2 : ThPt K} {P Q x : G} (r : Nat)
    (hk : Kernel8 O ((ThStr.new O).doubleIter K1 r) ((ThStr.new O).doubleIter K2 r)) (hK1 : OnKummer O K1) (hK2 : OnKummer O K2)
    (eP : (θ P).Same K1) (eQ : (θ Q).Same K2) (hPQ : ∀ a b : ℤ, N (a • P + b • Q))
    (hx : ∀ a b : ℤ, N (x + (a • 4 • P + b • 4 • Q)))
    (hi : (isoNull O ((ThStr.new O).doubleIter K1 r) ((ThStr.new O).doubleIter K2 r)).Same
      (isoImage O ((ThStr.new O).doubleIter K1 r) ((ThStr.new O).doubleIter K2 r) (θ x))) :
    ∃ a b : ℤ, O.Same (θ (x + (a • 4 • P + b • 4 • Q))) := by
  have nP : ∀ k : ℕ, N (k • P) := fun k => by simpa using hPQ k 0
  have nQ : ∀ k : ℕ, N (k • Q) := fun k => by simpa using hPQ 0 k
  have h0 : N 0 := by simpa using hPQ 0 0
  have dP := (h.doubleIter h2 hO h6 hk nP (r + 1) hK1 eP)
  have dQ := (h.doubleIter h2 hO h6 hk nQ (r + 1) hK2 eQ)
  have it : ∀ X : ThPt K, (ThStr.new O).doubleIter X (r + 1) = (ThStr.new O).double ((ThStr.new O).doubleIter X r) := by
    intro X
    exact doubleIter_add _ _ r 1
  rw [it] at dP dQ
  have e4 : ∀ X : G, 2 • 2 ^ (r + 1) • X = ((2 ^ r : ℕ) : ℤ) • 4 • X := by
    intro X
    rw [natCast_zsmul, ← mul_nsmul', ← mul_nsmul']
    congr 1
    ring
  have fP := h.flip_true h2 h6 h0 (nP _) (by rw [← mul_nsmul']; exact nP _) ((same_zeros dP).1 hk.y1) ((same_zeros dP).2.2 hk.t1)
  have fQ := h.flip_false h2 h6 h0 (nQ _) (by rw [← mul_nsmul']; exact nQ _) ((same_zeros dQ).2.1 hk.z2) ((same_zeros dQ).2.2 hk.t2)
  obtain ⟨a, b, hab⟩ := h.exact h2 hO.dual h6 (kernel_dual h2 hO hk) fP fQ (by rw [← mul_nsmul']; exact nP _)
    (by rw [← mul_nsmul']; exact nQ _) (fun a b => by rw [e4, e4, ← mul_zsmul, ← mul_zsmul]; exact hx _ _) hi
  rw [e4, e4, ← mul_zsmul, ← mul_zsmul] at hab
  exact ⟨_, _, hab⟩

end Festa
