import Verif.Model.Precompute
import Verif.Lemmas.FpPow
import Verif.Spec.FpDiv
/-! Lemmas on the constant generator. -/
namespace Festa

theorem nbits_lt (n : Nat) : n < 2 ^ nbits n := by
  unfold nbits
  split_ifs with h
  · subst h; norm_num
  · exact Nat.lt_log2_self

theorem nbits_le {n : Nat} (h : n ≠ 0) : 2 ^ (nbits n - 1) ≤ n := by
  unfold nbits
  rw [if_neg h, Nat.add_sub_cancel]
  exact Nat.log2_self_le h

theorem digitsLoop_lt {w : Nat} : ∀ {fuel n d : Nat}, d ∈ digitsLoop w fuel n → d < 2 ^ w
  | 0, _, _, h => by simp [digitsLoop] at h
  | fuel + 1, n, d, h => by
    rw [digitsLoop] at h
    split_ifs at h
    · simp at h
    · rcases List.mem_cons.mp h with rfl | h
      · exact Nat.mod_lt _ (by positivity)
      · exact digitsLoop_lt h

theorem digitsLoop_val {w : Nat} (hw : 1 ≤ w) : ∀ {fuel n : Nat}, n < 2 ^ fuel → digitVal w (digitsLoop w fuel n) = n
  | 0, n, h => by simp at h; subst h; rfl
  | fuel + 1, n, h => by
    rw [digitsLoop]
    split_ifs with h0
    · rw [h0]; rfl
    · rw [digitVal, digitsLoop_val hw (n := n >>> w), Nat.shiftRight_eq_div_pow, Nat.mod_add_div]
      rw [Nat.shiftRight_eq_div_pow]
      refine Nat.div_lt_of_lt_mul (h.trans_le ?_)
      rw [← pow_add]
      exact Nat.pow_le_pow_right (by norm_num) (by omega)

theorem digitsLoop_last {w : Nat} (hw : 1 ≤ w) : ∀ {fuel n : Nat}, n < 2 ^ fuel → n ≠ 0 →
    ∃ d, (digitsLoop w fuel n).getLast? = some d ∧ d ≠ 0
  | 0, n, h, h0 => by simp at h; exact absurd h h0
  | fuel + 1, n, h, h0 => by
    rw [digitsLoop, if_neg h0]
    have hlt : n >>> w < 2 ^ fuel := by
      rw [Nat.shiftRight_eq_div_pow]
      refine Nat.div_lt_of_lt_mul (h.trans_le ?_)
      rw [← pow_add]
      exact Nat.pow_le_pow_right (by norm_num) (by omega)
    by_cases hz : n >>> w = 0
    · refine ⟨n % 2 ^ w, ?_, ?_⟩
      · rw [hz]
        cases fuel <;> simp [digitsLoop]
      · rw [Nat.shiftRight_eq_div_pow, Nat.div_eq_zero_iff] at hz
        rw [Nat.mod_eq_of_lt (hz.resolve_left (by positivity))]
        exact h0
    · obtain ⟨d, e, hd⟩ := digitsLoop_last hw hlt hz
      refine ⟨d, ?_, hd⟩
      rw [List.getLast?_cons, e]; rfl

theorem digitsLoop_length {w : Nat} (hw : 1 ≤ w) : ∀ {fuel n k : Nat}, n < 2 ^ fuel → ((digitsLoop w fuel n).length ≤ k ↔ n < (2 ^ w) ^ k)
  | 0, n, k, h => by
    simp at h; subst h
    simp [digitsLoop]
  | fuel + 1, n, k, h => by
    rw [digitsLoop]
    split_ifs with h0
    · subst h0; simp
    · have hlt : n >>> w < 2 ^ fuel := by
        rw [Nat.shiftRight_eq_div_pow]
        refine Nat.div_lt_of_lt_mul (h.trans_le ?_)
        rw [← pow_add]
        exact Nat.pow_le_pow_right (by norm_num) (by omega)
      rcases k with _ | k
      · simp; omega
      · rw [List.length_cons, Nat.add_le_add_iff_right, digitsLoop_length hw hlt, Nat.shiftRight_eq_div_pow,
          Nat.div_lt_iff_lt_mul (by positivity), pow_succ]

theorem toDigits_val {w : Nat} (hw : 1 ≤ w) (n : Nat) : digitVal w (toDigits w n) = n := digitsLoop_val hw (nbits_lt n)

theorem toDigits_win {w n : Nat} (hw : 1 ≤ w) (h : n ≠ 0) : WinDigits w (toDigits w n) :=
  ⟨fun _ => digitsLoop_lt, digitsLoop_last hw (nbits_lt n) h⟩

theorem toDigits_length {w : Nat} (hw : 1 ≤ w) (n k : Nat) : (toDigits w n).length ≤ k ↔ n < (2 ^ w) ^ k := digitsLoop_length hw (nbits_lt n)

/-- A number of at most `N` words is printed with `N` words if and only if it does not fit in `N - 1` words. -/
theorem toDigits_length_eq {n N : Nat} (hN : 1 ≤ N) (h : n < (2 ^ 64) ^ N) :
    (toDigits 64 n).length = N ↔ (2 ^ 64) ^ (N - 1) ≤ n := by
  have h1 := (toDigits_length (w := 64) (by norm_num) n N).mpr h
  have h2 := toDigits_length (w := 64) (by norm_num) n (N - 1)
  constructor
  · intro e
    by_contra hlt
    have := h2.mpr (Nat.lt_of_not_le hlt)
    omega
  · intro hge
    by_contra hne
    exact absurd (h2.mp (by omega)) (Nat.not_lt.mpr hge)

theorem lval_ofNat : ∀ {l : List Nat}, (∀ d ∈ l, d < 2 ^ 64) → lval (l.map UInt64.ofNat) = digitVal 64 l
  | [], _ => rfl
  | d :: l, h => by
    rw [List.map_cons, lval, digitVal, lval_ofNat fun d hd => h d (List.mem_cons_of_mem _ hd), UInt64.toNat_ofNat',
      Nat.mod_eq_of_lt (h d List.mem_cons_self)]

/-- An array that compiles has the right length and value. -/
theorem rustArray_spec {n v : Nat} {x : Limbs} (h : rustArray n (toDigits 64 v) = some x) : x.length = n ∧ lval x = v := by
  unfold rustArray at h
  split_ifs at h with hl
  obtain rfl := Option.some.inj h
  exact ⟨by rw [List.length_map, hl], by rw [lval_ofNat (l := toDigits 64 v) fun _ => digitsLoop_lt, toDigits_val (by norm_num)]⟩

theorem rustU64_spec {n : Nat} {x : UInt64} (h : rustU64 n = some x) : x.toNat = n := by
  unfold rustU64 at h
  split_ifs at h with hl
  obtain rfl := Option.some.inj h
  rw [UInt64.toNat_ofNat', Nat.mod_eq_of_lt hl]

theorem lowLoop_dvd (e : Nat) : ∀ k, 2 ^ (5 * lowLoop e k) ∣ e
  | 0 => by simp [lowLoop]
  | k + 1 => by
    rw [lowLoop]
    split_ifs with h
    · exact Nat.dvd_of_mod_eq_zero h
    · exact lowLoop_dvd e k

/-- The parts of a module that compiles. -/
theorem GenFp.compile_some {g : GenFp} {P : FpParams} (hc : g.compile = some P) :
    P.N = g.N ∧ P.BITLEN = g.BITLEN ∧ P.WIN_LEN = g.WIN_LEN ∧ P.SQRT_EH = g.SQRT_EH ∧ P.SQRT_EL = g.SQRT_EL ∧
      P.FOURTH_ROOT_EH = g.FOURTH_ROOT_EH ∧ P.FOURTH_ROOT_EL = g.FOURTH_ROOT_EL ∧
      rustArray g.N g.MODULUS = some P.MODULUS ∧ rustArray g.N g.HALF_MODULUS = some P.HALF_MODULUS ∧
      rustArray g.N g.R_VAL = some P.R_VAL ∧ rustArray g.N g.MINUS_R_VAL = some P.MINUS_R_VAL ∧
      rustArray g.N g.DR_VAL = some P.DR_VAL ∧ rustArray g.N g.TR_VAL = some P.TR_VAL ∧
      rustArray g.N g.QR_VAL = some P.QR_VAL ∧ rustArray g.N g.R2_VAL = some P.R2_VAL ∧
      rustU64 g.P0I = some P.P0I ∧ rustArray g.N g.TFIXDIV_VAL = some P.TFIXDIV_VAL ∧
      rustArray g.N g.TDEC_VAL = some P.TDEC_VAL ∧ rustU64 g.P1 = some P.P1 ∧
      rustU64 g.P1DIV_M = some P.P1DIV_M := by
  unfold GenFp.compile at hc
  obtain ⟨_, e1, hc⟩ := Option.bind_eq_some_iff.mp hc
  obtain ⟨_, e2, hc⟩ := Option.bind_eq_some_iff.mp hc
  obtain ⟨_, e3, hc⟩ := Option.bind_eq_some_iff.mp hc
  obtain ⟨_, e4, hc⟩ := Option.bind_eq_some_iff.mp hc
  obtain ⟨_, e5, hc⟩ := Option.bind_eq_some_iff.mp hc
  obtain ⟨_, e6, hc⟩ := Option.bind_eq_some_iff.mp hc
  obtain ⟨_, e7, hc⟩ := Option.bind_eq_some_iff.mp hc
  obtain ⟨_, e8, hc⟩ := Option.bind_eq_some_iff.mp hc
  obtain ⟨_, e9, hc⟩ := Option.bind_eq_some_iff.mp hc
  obtain ⟨_, e10, hc⟩ := Option.bind_eq_some_iff.mp hc
  obtain ⟨_, e11, hc⟩ := Option.bind_eq_some_iff.mp hc
  obtain ⟨_, e12, hc⟩ := Option.bind_eq_some_iff.mp hc
  obtain ⟨_, e13, hc⟩ := Option.bind_eq_some_iff.mp hc
  obtain rfl := Option.some.inj hc
  exact ⟨rfl, rfl, rfl, rfl, rfl, rfl, rfl, e1, e2, e3, e4, e5, e6, e7, e8, e9, e10, e11, e12, e13⟩

/-- The parts determine the module. -/
theorem GenFp.compile_eq {g : GenFp} {P : FpParams} (h1 : P.N = g.N) (h2 : P.BITLEN = g.BITLEN) (h3 : P.WIN_LEN = g.WIN_LEN)
    (h4 : P.SQRT_EH = g.SQRT_EH) (h5 : P.SQRT_EL = g.SQRT_EL) (h6 : P.FOURTH_ROOT_EH = g.FOURTH_ROOT_EH)
    (h7 : P.FOURTH_ROOT_EL = g.FOURTH_ROOT_EL) (e1 : rustArray g.N g.MODULUS = some P.MODULUS)
    (e2 : rustArray g.N g.HALF_MODULUS = some P.HALF_MODULUS) (e3 : rustArray g.N g.R_VAL = some P.R_VAL)
    (e4 : rustArray g.N g.MINUS_R_VAL = some P.MINUS_R_VAL) (e5 : rustArray g.N g.DR_VAL = some P.DR_VAL)
    (e6 : rustArray g.N g.TR_VAL = some P.TR_VAL) (e7 : rustArray g.N g.QR_VAL = some P.QR_VAL)
    (e8 : rustArray g.N g.R2_VAL = some P.R2_VAL) (e9 : rustU64 g.P0I = some P.P0I)
    (e10 : rustArray g.N g.TFIXDIV_VAL = some P.TFIXDIV_VAL) (e11 : rustArray g.N g.TDEC_VAL = some P.TDEC_VAL)
    (e12 : rustU64 g.P1 = some P.P1) (e13 : rustU64 g.P1DIV_M = some P.P1DIV_M) : g.compile = some P := by
  cases P
  simp only at h1 h2 h3 h4 h5 h6 h7
  simp only [GenFp.compile, e1, e2, e3, e4, e5, e6, e7, e8, e9, e10, e11, e12, e13, Option.bind_eq_bind, Option.bind_some, h1, h2, h3, h4, h5, h6, h7]

/-- A module compiles if and only if its arrays have the right length and its numbers fit. -/
theorem GenFp.compile_isSome (g : GenFp) : g.compile.isSome ↔
    (∀ l ∈ [g.MODULUS, g.HALF_MODULUS, g.R_VAL, g.MINUS_R_VAL, g.DR_VAL, g.TR_VAL, g.QR_VAL, g.R2_VAL, g.TFIXDIV_VAL, g.TDEC_VAL],
      l.length = g.N) ∧ g.P0I < 2 ^ 64 ∧ g.P1 < 2 ^ 64 ∧ g.P1DIV_M < 2 ^ 64 := by
  have ha : ∀ (n : Nat) (l : List Nat), (∃ x, rustArray n l = some x) ↔ l.length = n := by
    intro n l; unfold rustArray; split_ifs with h <;> simp [h]
  have hu : ∀ n : Nat, (∃ x, rustU64 n = some x) ↔ n < 2 ^ 64 := by
    intro n; unfold rustU64; split_ifs with h <;> simp only [h, iff_true, iff_false] <;> simp
  constructor
  · intro h
    obtain ⟨P, h⟩ := Option.isSome_iff_exists.mp h
    obtain ⟨-, -, -, -, -, -, -, e1, e2, e3, e4, e5, e6, e7, e8, e9, e10, e11, e12, e13⟩ := GenFp.compile_some h
    simp only [List.mem_cons, List.not_mem_nil, or_false, forall_eq_or_imp, forall_eq]
    exact ⟨⟨(ha _ _).mp ⟨_, e1⟩, (ha _ _).mp ⟨_, e2⟩, (ha _ _).mp ⟨_, e3⟩, (ha _ _).mp ⟨_, e4⟩, (ha _ _).mp ⟨_, e5⟩, (ha _ _).mp ⟨_, e6⟩,
      (ha _ _).mp ⟨_, e7⟩, (ha _ _).mp ⟨_, e8⟩, (ha _ _).mp ⟨_, e10⟩, (ha _ _).mp ⟨_, e11⟩⟩, (hu _).mp ⟨_, e9⟩, (hu _).mp ⟨_, e12⟩, (hu _).mp ⟨_, e13⟩⟩
  · simp only [List.mem_cons, List.not_mem_nil, or_false, forall_eq_or_imp, forall_eq]
    rintro ⟨⟨e1, e2, e3, e4, e5, e6, e7, e8, e10, e11⟩, e9, e12, e13⟩
    obtain ⟨_, e1⟩ := (ha _ _).mpr e1
    obtain ⟨_, e2⟩ := (ha _ _).mpr e2
    obtain ⟨_, e3⟩ := (ha _ _).mpr e3
    obtain ⟨_, e4⟩ := (ha _ _).mpr e4
    obtain ⟨_, e5⟩ := (ha _ _).mpr e5
    obtain ⟨_, e6⟩ := (ha _ _).mpr e6
    obtain ⟨_, e7⟩ := (ha _ _).mpr e7
    obtain ⟨_, e8⟩ := (ha _ _).mpr e8
    obtain ⟨_, e9⟩ := (hu _).mpr e9
    obtain ⟨_, e10⟩ := (ha _ _).mpr e10
    obtain ⟨_, e11⟩ := (ha _ _).mpr e11
    obtain ⟨_, e12⟩ := (hu _).mpr e12
    obtain ⟨_, e13⟩ := (hu _).mpr e13
    simp only [GenFp.compile, e1, e2, e3, e4, e5, e6, e7, e8, e9, e10, e11, e12, e13, Option.bind_eq_bind, Option.bind_some, Option.isSome_some]

theorem inverse_aux {p M : Nat} (hM : 0 < M) (hc : Nat.Coprime p M) :
    ((Int.gcdA (-(p : Int)) M % M).toNat * p + 1) % M = 0 ∧ (Int.gcdA (-(p : Int)) M % M).toNat < M := by
  have h0 : (0 : Int) ≤ Int.gcdA (-(p : Int)) M % M := Int.emod_nonneg _ (by omega)
  have h1 : Int.gcdA (-(p : Int)) M % M < M := Int.emod_lt_of_pos _ (by omega)
  have e := Int.gcd_eq_gcd_ab (-(p : Int)) M
  have hc : Int.gcd (-(p : Int)) M = 1 := by
    rw [Int.neg_gcd]
    exact_mod_cast hc
  rw [hc] at e
  have hx := Int.toNat_of_nonneg h0
  generalize (Int.gcdA (-(p : Int)) M % M).toNat = x at *
  refine ⟨?_, by omega⟩
  have hm := Int.emod_add_mul_ediv (Int.gcdA (-(p : Int)) M) M
  rw [← hx] at hm
  have hd : (M : Int) ∣ ((x * p + 1 : Nat) : Int) :=
    ⟨Int.gcdB (-(p : Int)) M - (p : Int) * (Int.gcdA (-(p : Int)) M / M), by
      push_cast at e ⊢
      linear_combination e + (p : Int) * hm⟩
  exact Nat.mod_eq_zero_of_dvd (Int.natCast_dvd_natCast.mp hd)

theorem inverseMod64_spec {p : Nat} (hp : p % 2 = 1) : (inverseMod64 p * p + 1) % 2 ^ 64 = 0 ∧ inverseMod64 p < 2 ^ 64 := by
  have hc : Nat.Coprime p (2 ^ 64) := Nat.Coprime.pow_right _ (by rw [Nat.coprime_comm, Nat.prime_two.coprime_iff_not_dvd]; omega)
  exact inverse_aux (M := 2 ^ 64) (by positivity) hc

end Festa
