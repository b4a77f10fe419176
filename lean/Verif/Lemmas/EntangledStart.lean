import Verif.Lemmas.Entangled
import Verif.Lemmas.Fr
import Mathlib.Tactic.NormNum.LegendreSymbol
/-! The search of `entangled_torsion_basis` succeeds on the starting curve `A = 6` (with `r = 7`). -/
namespace Festa
open RootOps CoeffOps

theorem p_eq : festaFp.p =
    124813370954946046625522215052328020445810037362111132960613286328441356722257752720010881927037475586399470137805050608043019087433283648739803958123964308223782110847178313188451195825370794537039688326247916639251700565349771267011273687997230352082398376708996664995018346239500252227115749220824758109724758742435933984445935095514141882211364143691731115285217804939575916379504639999 := by
  decide +kernel

theorem jac7 : jacobiSym 9605
    124813370954946046625522215052328020445810037362111132960613286328441356722257752720010881927037475586399470137805050608043019087433283648739803958123964308223782110847178313188451195825370794537039688326247916639251700565349771267011273687997230352082398376708996664995018346239500252227115749220824758109724758742435933984445935095514141882211364143691731115285217804939575916379504639999 = -1 := by
  norm_num

theorem jac7t : jacobiSym 3295932462339189808500
    124813370954946046625522215052328020445810037362111132960613286328441356722257752720010881927037475586399470137805050608043019087433283648739803958123964308223782110847178313188451195825370794537039688326247916639251700565349771267011273687997230352082398376708996664995018346239500252227115749220824758109724758742435933984445935095514141882211364143691731115285217804939575916379504639999 = 1 := by
  norm_num

theorem nsq7 : ¬ IsSquare (9605 : ZMod festaFp.p) := by
  have h := jac7
  rw [← p_eq] at h
  have := ZMod.nonsquare_of_jacobiSym_eq_neg_one h
  exact_mod_cast this

theorem sq7t : IsSquare ((3295932462339189808500 : Nat) : ZMod festaFp.p) := by
  have h := jac7t
  rw [← p_eq] at h
  have hf := Fact.mk festa_prime
  have := ZMod.isSquare_of_jacobiSym_eq_one h
  exact_mod_cast this

theorem Fr.val_natCast (m : Nat) : (m : Fr).val = m := by
  induction m with
  | zero => rw [Nat.cast_zero, Nat.cast_zero, Fr.val_zero]
  | succ m ih => rw [Nat.cast_succ, Nat.cast_succ, Fr.val_add, ih, Fr.val_one]

theorem Fr.natCast_ne (n : Nat) (h0 : n ≠ 0) (hn : n < festaFp.p) : (n : Fr) ≠ 0 := by
  intro h
  have := Fr.val_natCast n
  rw [h, Fr.val_zero] at this
  exact h0 (Nat.eq_zero_of_dvd_of_lt ((ZMod.natCast_eq_zero_iff _ _).mp this.symm) hn)

section
variable {F K : Type*} [Field F] [DecidableEq F] [Field K] [DecidableEq K] [RootOps K] [CoeffOps F K]

omit [DecidableEq K] in
theorem elligatorLoop_sub (k : Nat) (r : K) (t1 t2 : List (K × K)) :
    ∀ q ∈ t1, q ∈ (elligatorLoop k r t1 t2).1 := by
  induction k generalizing r t1 t2 with
  | zero => exact fun q h => h
  | succ k ih =>
    intro q hq
    unfold elligatorLoop
    dsimp only
    split
    · exact ih _ _ _ q hq
    · exact ih _ _ _ q (List.mem_append_left _ hq)

omit [DecidableEq K] in
theorem elligatorLoop_mem (k n m : Nat) (t1 t2 : List (K × K)) (h1 : n ≤ m) (h2 : m < n + k)
    (hl : legendre ((1 + zeta * 2 * ((m : K) * m))⁻¹ : K) ≠ 1) :
    ((m : K), (1 + zeta * 2 * ((m : K) * m))⁻¹) ∈ (elligatorLoop k (n : K) t1 t2).1 := by
  induction k generalizing n t1 t2 with
  | zero => omega
  | succ k ih =>
    unfold elligatorLoop
    dsimp only
    by_cases hm : n = m
    · subst hm
      rw [if_neg hl]
      exact elligatorLoop_sub _ _ _ _ _ (List.mem_append_right _ (List.mem_singleton.mpr rfl))
    · rw [← Nat.cast_succ]
      split
      · exact ih _ _ _ (by omega) (by omega)
      · exact ih _ _ _ (by omega) (by omega)

omit [DecidableEq K] in
theorem entangledSearch_some {A : K} {T : List (K × K)} {r v : K} (h : (r, v) ∈ T)
    (hs : ∀ c d : F, (-A * v) * ((-A * v) * (-A * v) + A * (-A * v) + 1) = new c d →
      IsSquare (c * c + d * d)) : ∃ o, entangledSearch (F := F) A T = some o := by
  induction T with
  | nil => cases h
  | cons q T ih =>
    obtain ⟨r', v'⟩ := q
    unfold entangledSearch
    dsimp only
    split
    · exact ⟨_, rfl⟩
    · rename_i hne
      rcases List.mem_cons.mp h with h | h
      · simp only [Prod.mk.injEq] at h
        obtain ⟨rfl, rfl⟩ := h
        exfalso
        apply hne
        have := hs _ _ (new_coeff _).symm
        rcases pow_rootExp (F := F) (K := K) _ with ⟨-, h2⟩ | ⟨h1, -⟩
        · exact h2
        · exact absurd this h1
      · exact ih h

end

theorem start_v_nonsq : ¬ IsSquare ((1 + zeta * 2 * (((7 : Nat) : Fq) * (7 : Nat)))⁻¹ : Fq) := by
  have hz : (1 + zeta * 2 * (((7 : Nat) : Fq) * (7 : Nat)) : Fq) = new ((1 : Nat) : Fr) ((98 : Nat) : Fr) := by
    have h98 : (new (0 : Fr) ((98 : Nat) : Fr) : Fq) = zeta * ((98 : Nat) : Fq) := by
      rw [← new_natCast (F := Fr) (K := Fq) 98, ← new_zeta (F := Fr), new_mul]
      simp
    have : (new ((1 : Nat) : Fr) ((98 : Nat) : Fr) : Fq) = new ((1 : Nat) : Fr) 0 + new (0 : Fr) ((98 : Nat) : Fr) := by
      rw [new_add]; simp
    rw [this, new_natCast, h98]
    push_cast
    ring
  rw [isSquare_inv, hz]
  rintro ⟨w, hw⟩
  rw [← new_coeff (F := Fr) w, new_mul] at hw
  generalize (coeff (F := Fr) w).1 = a at hw
  generalize (coeff (F := Fr) w).2 = b at hw
  obtain ⟨e1, e2⟩ := new_inj hw
  apply nsq7
  refine ⟨(a * a + b * b).val, ?_⟩
  rw [← Fr.val_mul]
  have : ((a * a + b * b) * (a * a + b * b) : Fr) = ((9605 : Nat) : Fr) := by
    have : ((9605 : Nat) : Fr) = ((1 : Nat) : Fr) * ((1 : Nat) : Fr) + ((98 : Nat) : Fr) * ((98 : Nat) : Fr) := by
      push_cast; norm_num
    rw [this, e1, e2]
    ring
  rw [this, Fr.val_natCast]
  norm_num

theorem start_t_sq (v : Fq) (hv : v = (1 + zeta * 2 * (((7 : Nat) : Fq) * (7 : Nat)))⁻¹) (c d : Fr)
    (h : (-6 * v) * ((-6 * v) * (-6 * v) + 6 * (-6 * v) + 1) = new c d) : IsSquare (c * c + d * d) := by
  have hz := zeta_sq (K := Fq)
  have hne : (1 + zeta * 2 * (((7 : Nat) : Fq) * (7 : Nat)) : Fq) ≠ 0 := by
    intro h0
    exact start_v_nonsq (by rw [h0, inv_zero]; exact ⟨0, by simp⟩)
  have hx : (-6 * v) * (1 + zeta * 98) = -6 := by
    have : v * (1 + zeta * 2 * (((7 : Nat) : Fq) * (7 : Nat))) = 1 := by rw [hv, inv_mul_cancel₀ hne]
    push_cast at this
    linear_combination -6 * this
  generalize (-6 * v) = x at hx h
  have hxq : x * 9605 = -6 * (1 - 98 * zeta) := by
    linear_combination (1 - 98 * zeta) * hx + (x * 98 * 98) * hz
  have e : (new c d : Fq) * 9605 ^ 3 = -6 * (1 - 98 * zeta) * ((-6 * (1 - 98 * zeta)) ^ 2 +
      6 * (-6 * (1 - 98 * zeta)) * 9605 + 9605 ^ 2) := by
    rw [← h, ← hxq]; ring
  have e' : (new c d : Fq) * 9605 ^ 3 = -20470465014 + 53636671452 * zeta := by
    rw [e]
    linear_combination (345744 * (-6 + 588 * zeta) - 588 * 7056 + 6 * 9605 * 345744) * hz
  -- coefficients
  have hl : (new c d : Fq) * 9605 ^ 3 = new (c * 9605 ^ 3) (d * 9605 ^ 3) := by
    have : (9605 : Fq) ^ 3 = new ((9605 ^ 3 : Nat) : Fr) 0 := by
      rw [new_natCast, Nat.cast_pow, Nat.cast_ofNat]
    rw [this, new_mul, mul_zero, mul_zero, sub_zero, zero_add, Nat.cast_pow, Nat.cast_ofNat]
  have hr : (-20470465014 + 53636671452 * zeta : Fq) =
      new (-((20470465014 : Nat) : Fr)) ((53636671452 : Nat) : Fr) := by
    have h1 : (20470465014 : Fq) = new ((20470465014 : Nat) : Fr) 0 := by rw [new_natCast]; norm_num
    have h2 : (53636671452 : Fq) = new ((53636671452 : Nat) : Fr) 0 := by rw [new_natCast]; norm_num
    rw [h1, h2, ← new_zeta (F := Fr), new_mul, new_neg, new_add]
    simp
  rw [hl, hr] at e'
  obtain ⟨e1, e2⟩ := new_inj e'
  have hn : (c * c + d * d) * (9605 ^ 3 * 9605 ^ 3) = ((3295932462339189808500 : Nat) : Fr) := by
    have e1' : c * 9605 ^ 3 * (c * 9605 ^ 3) + d * 9605 ^ 3 * (d * 9605 ^ 3) =
        ((3295932462339189808500 : Nat) : Fr) := by
      rw [e1, e2]; push_cast; norm_num
    rw [← e1']; ring
  have hsq : IsSquare ((3295932462339189808500 : Nat) : Fr) := by
    rw [Fr.isSquare_val, Fr.val_natCast]
    exact sq7t
  obtain ⟨w, hw⟩ := hsq
  have h0 : (9605 : Fr) ≠ 0 := by
    have := Fr.natCast_ne 9605 (by norm_num) (by rw [p_eq]; norm_num)
    exact_mod_cast this
  have h3 : (9605 : Fr) ^ 3 ≠ 0 := pow_ne_zero _ h0
  refine ⟨w / 9605 ^ 3, ?_⟩
  rw [div_mul_div_comm, eq_div_iff (mul_ne_zero h3 h3), hn, hw]

/-- The construction succeeds on the starting curve. -/
theorem start_points : ∃ S, entangledPoints (F := Fr) (6 : Fq) = some S := by
  have h6 : (6 : Fq) = new ((6 : Nat) : Fr) 0 := by rw [new_natCast]; norm_num
  have h60 : (6 : Fr) ≠ 0 := by
    have := Fr.natCast_ne 6 (by norm_num) (by rw [p_eq]; norm_num)
    exact_mod_cast this
  have hne : (6 : Fq) ≠ 0 := by
    rw [h6]
    intro h
    exact h60 (by exact_mod_cast (new_inj (h.trans (new_zero (F := Fr)).symm)).1)
  have hl : legendre (6 : Fq) = 1 := by
    rw [legendre_one]
    refine ⟨hne, ?_⟩
    rcases pow_rootExp (F := Fr) (K := Fq) ((6 : Nat) : Fr) with ⟨⟨w, hw⟩, -⟩ | ⟨-, hw⟩
    · refine ⟨new w 0, ?_⟩
      rw [h6, new_mul, hw]; simp
    · generalize (((6 : Nat) : Fr) ^ rootExp Fq) = w at hw
      refine ⟨new 0 w, ?_⟩
      rw [h6, new_mul, ← neg_neg ((6 : Nat) : Fr), ← hw]; simp
  have hmem := elligatorLoop_mem (K := Fq) 30 1 7 [] [] (by norm_num) (by norm_num) (by
    intro h
    rw [legendre_one] at h
    exact start_v_nonsq h.2)
  rw [Nat.cast_one] at hmem
  obtain ⟨o, ho⟩ := entangledSearch_some (F := Fr) (A := (6 : Fq)) (T := (elligatorTables (K := Fq)).1) hmem
    (fun c d h => start_t_sq _ rfl c d h)
  unfold entangledPoints
  dsimp only
  rw [if_pos hl]
  dsimp only
  rw [ho]
  exact ⟨_, rfl⟩

end Festa
