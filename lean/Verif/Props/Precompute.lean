import Verif.Lemmas.Precompute
import Verif.Lemmas.FestaParams
import Verif.Model.FestaConsts
import Verif.Props.Fp
import Verif.Lemmas.Fp2
import Mathlib.NumberTheory.LucasLehmer
/-!
Properties C86 and C87: the constants printed by precompute/gen_fp.sage and precompute/temp.py.
-/
namespace Festa

/-- Number of bits and words as counted by the script. -/
theorem genFp_size {p : Nat} (hp : 2 ^ 64 < p) :
    2 ≤ (genFp p).N ∧ (2 ^ (nbits p - 1) ≤ p ∧ p < 2 ^ nbits p) ∧ 64 * ((genFp p).N - 1) < nbits p ∧ nbits p ≤ 64 * (genFp p).N ∧ 65 ≤ nbits p := by
  have h0 : p ≠ 0 := by rintro rfl; norm_num at hp
  have h1 := nbits_lt p
  have h2 := nbits_le h0
  have h3 : 65 ≤ nbits p := by
    by_contra h
    have : 2 ^ nbits p ≤ 2 ^ 64 := Nat.pow_le_pow_right (by norm_num) (by omega)
    omega
  refine ⟨?_, ⟨h2, h1⟩, ?_, ?_, h3⟩ <;> simp only [genFp] <;> omega

/-- The exponent of the division constant. -/
theorem fixExp_eq {b n : Nat} (hb : 17 ≤ b) :
    fixExp b n = 33 * ((2 * b - 34) / 31) + 64 - (2 * b - 31 * ((2 * b - 34) / 31) - 2) + 2 * (64 * n) := by
  unfold fixExp
  simp only
  omega

/-- C86: whenever the printed module compiles, for a prime `p` congruent to 7 modulo 8 of more than one word whose words
have room for `3 p`, its constants satisfy everything the arithmetic of fp_gen.rs needs (the hypotheses of C03 to C17), and the
modulus is `p`. -/
theorem C86_generated {p : Nat} {P : FpParams} (hp : p.Prime) (h8 : p % 8 = 7) (h64 : 2 ^ 64 < p) (hroom : 3 * p ≤ 2 ^ (64 * P.N))
    (hc : (genFp p).compile = some P) : P.p = p ∧ P.Valid ∧ P.DivValid ∧ P.RootValid := by
  obtain ⟨hN, hb, hbN, hbN', h65⟩ := genFp_size h64
  obtain ⟨eN, eB, eW, eS, eSl, eF, eFl, m, hf, r, mr, dr, tr, qr, r2, i, fx, dc, p1, pm⟩ := GenFp.compile_some hc
  replace eB : P.BITLEN = nbits p := eB
  replace eW : P.WIN_LEN = 5 := eW
  have m := rustArray_spec m
  have hf := rustArray_spec hf
  have r := rustArray_spec r
  have mr := rustArray_spec mr
  have dr := rustArray_spec dr
  have tr := rustArray_spec tr
  have qr := rustArray_spec qr
  have r2 := rustArray_spec r2
  have fx := rustArray_spec fx
  have dc := rustArray_spec dc
  have i := rustU64_spec i
  have p1 := rustU64_spec p1
  have pm := rustU64_spec pm
  rw [← eN] at hN hbN hbN' m hf r mr dr tr qr r2 fx dc
  have hpp : P.p = p := m.2
  have hR : P.R = 2 ^ (64 * P.N) := by rw [FpParams.R, ← pow_mul]
  have hn : (nbits p + 63) / 64 = P.N := eN.symm
  have odd : p % 2 = 1 := by omega
  have hs : (genFp p).P1 = p / 2 ^ (nbits p - 32) := if_pos (by omega)
  rw [hn] at r mr dr tr qr r2 fx dc
  refine ⟨hpp, ⟨hN, m.1, by rw [hpp]; exact odd, by rw [hpp]; omega, by rw [hpp, eB]; exact hb, by rw [eB]; exact ⟨hbN, hbN'⟩,
    by omega, by rw [hpp, hR]; exact hroom, ?_, hf.1, by rw [hpp]; exact hf.2, r.1, by rw [hpp, hR]; exact r.2, mr.1, ?_, dr.1, ?_, tr.1, ?_,
    qr.1, ?_, r2.1, ?_, dc.1, ?_, ?_, ?_, by rw [eW]; norm_num⟩, ⟨fx.1, ?_, ?_⟩, ⟨by rw [hpp]; exact hp, by rw [hpp]; exact h8, ?_, ?_, ?_, ?_⟩⟩
  · rw [i, hpp]; exact (inverseMod64_spec odd).1
  · rw [mr.2, hpp, hR]
    have hnd : 2 ^ (64 * P.N) % p ≠ 0 := by
      intro h
      have := (Nat.prime_dvd_prime_iff_eq hp Nat.prime_two).mp (hp.dvd_of_dvd_pow (Nat.dvd_of_mod_eq_zero h))
      omega
    have hlt := Nat.mod_lt (2 ^ (64 * P.N)) hp.pos
    have e := Nat.mod_add_div (2 ^ (64 * P.N)) p
    generalize 2 ^ (64 * P.N) % p = x at *
    have : (-(2 ^ (64 * P.N) : Int)) % p = ((p - x : Nat) : Int) := by
      rw [Int.emod_eq_iff (by omega)]
      refine ⟨by omega, by omega, ⟨((2 ^ (64 * P.N) / p : Nat) : Int) + 1, ?_⟩⟩
      have e' : ((x + p * (2 ^ (64 * P.N) / p) : Nat) : Int) = ((2 ^ (64 * P.N) : Nat) : Int) := by rw [e]
      push_cast [Nat.cast_sub hlt.le] at e' ⊢
      linear_combination -e'
    rw [this, Int.toNat_natCast]
  · rw [dr.2, hpp, hR, pow_succ, mul_comm]
  · rw [tr.2, hpp, hR]
  · rw [qr.2, hpp, hR, pow_add, mul_comm]; norm_num
  · rw [r2.2, hpp, hR, ← pow_add]; congr 2; ring
  · rw [dc.2, hpp, ← pow_mul]
  · rw [p1, hs, hpp, eB]
  · rw [pm, p1, hs]; exact congrArg (fun t => 1 + (2 ^ 32 - t) * 2 ^ 64 / t) hs
  · rw [fx.2, hpp]; exact Nat.mod_lt _ hp.pos
  · rw [fx.2, hpp, hR, fixExp_eq (by omega), FpParams.num2, FpParams.num1, eB, mul_assoc, ← pow_add, ← pow_add]
    congr 3; ring
  · rw [eW, eS]
    exact toDigits_win (by norm_num) (Nat.div_ne_zero_iff.mpr ⟨by positivity, Nat.le_of_dvd (by omega) (lowLoop_dvd _ _)⟩)
  · rw [eW, eS, eSl, hpp]
    show digitVal 5 (toDigits 5 _) * _ = _
    rw [toDigits_val (by norm_num)]
    exact Nat.div_mul_cancel (lowLoop_dvd _ _)
  · rw [eW, eF]
    exact toDigits_win (by norm_num) (Nat.div_ne_zero_iff.mpr ⟨by positivity, Nat.le_of_dvd (by omega) (lowLoop_dvd _ _)⟩)
  · rw [eW, eF, eFl, hpp]
    show digitVal 5 (toDigits 5 _) * _ = _
    rw [toDigits_val (by norm_num)]
    exact Nat.div_mul_cancel (lowLoop_dvd _ _)


/-- C86: the printed module compiles if and only if no constant fits in fewer words than the modulus (the script prints no
leading zeros, so the array would be too short) and the 32 leading bits of the modulus are not `2^31` (`P1DIV_M` would not fit). -/
theorem C86_compiles {p : Nat} (odd : p % 2 = 1) (h64 : 2 ^ 64 < p) :
    (genFp p).compile.isSome ↔
      (∀ v ∈ [(p + 1) / 2, 2 ^ (64 * (genFp p).N) % p, p - 2 ^ (64 * (genFp p).N) % p, 2 * 2 ^ (64 * (genFp p).N) % p,
          3 * 2 ^ (64 * (genFp p).N) % p, 4 * 2 ^ (64 * (genFp p).N) % p, 2 ^ (64 * (genFp p).N) * 2 ^ (64 * (genFp p).N) % p,
          2 ^ (33 * ((2 * nbits p - 34) / 31) + 64 - (2 * nbits p - 31 * ((2 * nbits p - 34) / 31) - 2)) * 2 ^ (64 * (genFp p).N) *
            2 ^ (64 * (genFp p).N) % p,
          2 ^ (64 * (2 * (genFp p).N - 1)) % p],
        2 ^ (64 * ((genFp p).N - 1)) ≤ v) ∧
      p / 2 ^ (nbits p - 32) ≠ 2 ^ 31 := by
  obtain ⟨hN, hb, hbN, hbN', h65⟩ := genFp_size h64
  have hs : (genFp p).P1 = p / 2 ^ (nbits p - 32) := if_pos (by omega)
  have hm : (genFp p).P1DIV_M = 1 + (2 ^ 32 - (genFp p).P1) * 2 ^ 64 / (genFp p).P1 := rfl
  have hi : (genFp p).P0I < 2 ^ 64 := (inverseMod64_spec odd).2
  have hp : 0 < p := by omega
  have hpR : p < 2 ^ (64 * (genFp p).N) := hb.2.trans_le (Nat.pow_le_pow_right (by norm_num) hbN')
  have hmr : ((-(2 ^ (64 * (genFp p).N) : Int)) % p).toNat = p - 2 ^ (64 * (genFp p).N) % p := by
    have hnd : 2 ^ (64 * (genFp p).N) % p ≠ 0 := by
      intro h
      obtain ⟨k, -, e⟩ := (Nat.dvd_prime_pow Nat.prime_two).mp (Nat.dvd_of_mod_eq_zero h)
      rcases k with _ | k
      · rw [e] at h64; norm_num at h64
      · rw [e, pow_succ] at odd; omega
    have hlt := Nat.mod_lt (2 ^ (64 * (genFp p).N)) hp
    have e := Nat.mod_add_div (2 ^ (64 * (genFp p).N)) p
    generalize 2 ^ (64 * (genFp p).N) % p = x at *
    have : (-(2 ^ (64 * (genFp p).N) : Int)) % p = ((p - x : Nat) : Int) := by
      rw [Int.emod_eq_iff (by omega)]
      refine ⟨by omega, by omega, ⟨((2 ^ (64 * (genFp p).N) / p : Nat) : Int) + 1, ?_⟩⟩
      have e' : ((x + p * (2 ^ (64 * (genFp p).N) / p) : Nat) : Int) = ((2 ^ (64 * (genFp p).N) : Nat) : Int) := by rw [e]
      push_cast [Nat.cast_sub hlt.le] at e' ⊢
      linear_combination -e'
    rw [this, Int.toNat_natCast]
  have len : ∀ v, v ≤ p → ((toDigits 64 v).length = (genFp p).N ↔ 2 ^ (64 * ((genFp p).N - 1)) ≤ v) := by
    intro v hv
    have := toDigits_length_eq (n := v) (N := (genFp p).N) (by omega) (by rw [← pow_mul]; omega)
    rwa [← pow_mul] at this
  have lt : ∀ v, v % p ≤ p := fun v => (Nat.mod_lt v hp).le
  have hmod : 2 ^ (64 * ((genFp p).N - 1)) ≤ p := (Nat.pow_le_pow_right (by norm_num) (by omega)).trans hb.1
  have l1 : (genFp p).MODULUS.length = (genFp p).N := (len p le_rfl).mpr hmod
  have l2 : (genFp p).HALF_MODULUS.length = (genFp p).N ↔ _ := len ((p + 1) / 2) (by omega)
  have l3 : (genFp p).R_VAL.length = (genFp p).N ↔ _ := len (2 ^ (64 * (genFp p).N) % p) (lt _)
  have l4 : (genFp p).MINUS_R_VAL.length = (genFp p).N ↔ _ := len (((-(2 ^ (64 * (genFp p).N) : Int)) % p).toNat) (by rw [hmr]; omega)
  have l5 : (genFp p).DR_VAL.length = (genFp p).N ↔ _ := len (2 ^ (64 * (genFp p).N + 1) % p) (lt _)
  have l6 : (genFp p).TR_VAL.length = (genFp p).N ↔ _ := len (3 * 2 ^ (64 * (genFp p).N) % p) (lt _)
  have l7 : (genFp p).QR_VAL.length = (genFp p).N ↔ _ := len (2 ^ (64 * (genFp p).N + 2) % p) (lt _)
  have l8 : (genFp p).R2_VAL.length = (genFp p).N ↔ _ := len (2 ^ (2 * 64 * (genFp p).N) % p) (lt _)
  have l9 : (genFp p).TFIXDIV_VAL.length = (genFp p).N ↔ _ := len (2 ^ fixExp (nbits p) (genFp p).N % p) (lt _)
  have l10 : (genFp p).TDEC_VAL.length = (genFp p).N ↔ _ := len (2 ^ (64 * (2 * (genFp p).N - 1)) % p) (lt _)
  rw [fixExp_eq (by omega), show 2 * (64 * (genFp p).N) = 64 * (genFp p).N + 64 * (genFp p).N by ring, ← add_assoc, pow_add _ _ (64 * (genFp p).N),
    pow_add _ _ (64 * (genFp p).N)] at l9
  rw [show 2 * 64 * (genFp p).N = 64 * (genFp p).N + 64 * (genFp p).N by ring, pow_add] at l8
  rw [pow_succ, mul_comm (2 ^ (64 * (genFp p).N)) 2] at l5
  rw [pow_add _ _ 2, mul_comm (2 ^ (64 * (genFp p).N)) (2 ^ 2)] at l7
  rw [hmr] at l4
  have hP1 : 2 ^ 31 ≤ (genFp p).P1 ∧ (genFp p).P1 < 2 ^ 32 := by
    rw [hs, Nat.le_div_iff_mul_le (by positivity), Nat.div_lt_iff_lt_mul (by positivity), ← pow_add, ← pow_add]
    exact ⟨by rw [show 31 + (nbits p - 32) = nbits p - 1 by omega]; exact hb.1, by rw [show 32 + (nbits p - 32) = nbits p by omega]; exact hb.2⟩
  rw [GenFp.compile_isSome]
  simp only [List.mem_cons, List.not_mem_nil, or_false, forall_eq_or_imp, forall_eq, l1, l2, l3, l4, l5, l6, l7, l8, l9, l10, hi, true_and]
  refine and_congr (by norm_num) ?_
  rw [← hs]
  constructor
  · rintro ⟨-, h⟩ e
    rw [hm, e] at h
    norm_num at h
  · intro h
    refine ⟨by omega, ?_⟩
    rw [hm]
    have : (2 ^ 32 - (genFp p).P1) * 2 ^ 64 / (genFp p).P1 < 2 ^ 64 - 1 := by
      rw [Nat.div_lt_iff_lt_mul (by omega)]
      omega
    omega


/-- Moduli with 64 low bits equal to 1: the constant `P0I` is 1. -/
theorem inverseMod64_one {p : Nat} (h3 : 2 ^ 64 ∣ p + 1) : inverseMod64 p = 1 := by
  obtain ⟨h1, h2⟩ := inverseMod64_spec (p := p) (by
    have := (show 2 ∣ 2 ^ 64 by norm_num).trans h3
    omega)
  generalize inverseMod64 p = x at *
  rcases Nat.eq_zero_or_pos x with rfl | hx
  · norm_num at h1
  have h4 : 2 ^ 64 ∣ x - 1 := by
    have := Nat.dvd_sub (h3.mul_left x) (Nat.dvd_of_mod_eq_zero h1)
    rwa [mul_add, mul_one, Nat.add_sub_add_left] at this
  have := Nat.eq_zero_of_dvd_of_lt h4 (by omega)
  omega

/-- The modulus in gen_fp.sage:33. -/
def genModulus : Nat := 124813370954946046625522215052328020445810037362111132960613286328441356722257752720010881927037475586399470137805050608043019087433283648739803958123964308223782110847178313188451195825370794537039688326247916639251700565349771267011273687997230352082398376708996664995018346239500252227115749220824758109724758742435933984445935095514141882211364143691731115285217804939575916379504639999

/-- The modulus in precompute.sage:1. -/
def startModulus : Nat := 0x176c11cf13e54b11406fcec87bd4c1480f2bf6b3cf47c54370febd1c756e54f72c1501712922baf5993402979d50dd13d09a841fed4773cfdb168f19a73e323f656921d7dcd797059b7b9ac3245c4d7be6b343ffffffffffffffffffffffffffffffffffffffffffffffffffffffffffffffffffffffffffffffffffffffffffffffffffffffffffffffffffffffffffffffffffffffffffffffffffffffffffffff

/-- C86: the constants of fields.rs are the output of the script. -/
theorem C86_festa : (genFp genModulus).compile = some festaFp ∧ festaFp.p = genModulus ∧ startModulus = genModulus := by
  refine ⟨?_, by decide +kernel, by decide +kernel⟩
  have i : inverseMod64 genModulus = 1 := inverseMod64_one (by decide +kernel)
  have e9 : rustU64 (genFp genModulus).P0I = some festaFp.P0I := (congrArg rustU64 i).trans (by decide +kernel)
  apply GenFp.compile_eq (e9 := e9) <;> decide +kernel


/-- The first modulus named in the script, gen_fp.sage:23-24 and 30. -/
def modulus254 : Nat := 35 * 4 * 2 ^ 126 * 3 ^ 76 - 1

theorem prime254 : modulus254.Prime := by
  refine Morrison.prime_of_cert modulus254 15341053083855687565548322695872901753063878819233798273296685486972811268819
    3835263270963921891387080673968225438265969704808449568324171371743202817205 3 128 (2 ^ 128 * 3) 255
    (by norm_num) (by norm_num) ?_ ?_ ?_ rfl ?_ ?_ ?_ ?_ ?_ ?_ ?_ <;> decide +kernel

/-- C86 for the first modulus named in the script: the module compiles and its constants are right. -/
theorem C86_254 : ∃ P, (genFp modulus254).compile = some P ∧ P.p = modulus254 ∧ P.Valid ∧ P.DivValid ∧ P.RootValid := by
  have h : (genFp modulus254).compile.isSome := (C86_compiles (by decide +kernel) (by decide +kernel)).mpr (by decide +kernel)
  obtain ⟨P, h⟩ := Option.isSome_iff_exists.mp h
  refine ⟨P, h, C86_generated prime254 (by decide +kernel) (by decide +kernel) ?_ h⟩
  rw [(GenFp.compile_some h).1]
  decide +kernel

/-- C86: leading zeros are not printed.  For the Mersenne prime `2^89 - 1`, which satisfies the other conditions of
`C86_generated`, the printed module does not compile. -/
theorem C86_short_fails : (2 ^ 89 - 1).Prime ∧ (2 ^ 89 - 1) % 8 = 7 ∧ 2 ^ 64 < 2 ^ 89 - 1 ∧ 4 * (2 ^ 89 - 1) ≤ 2 ^ (64 * (genFp (2 ^ 89 - 1)).N) ∧
    (genFp (2 ^ 89 - 1)).compile = none := by
  have h : ¬ (genFp (2 ^ 89 - 1)).compile.isSome := by
    rw [C86_compiles (by norm_num) (by norm_num)]
    decide +kernel
  refine ⟨?_, by norm_num, by norm_num, by decide +kernel, by simpa using h⟩
  have : (mersenne 89).Prime := lucas_lehmer_sufficiency _ (by norm_num) (by norm_num)
  exact this

/-- C86: the script is announced for all primes congruent to 3 modulo 4, but for `p` congruent to 3 modulo 8 the exponent of the
fourth root is wrong: it makes fourth roots of the inverse.  (11 is such a prime, and the module compiles for it.) -/
theorem C86_fourth_root_fails {p : Nat} {P : FpParams} [Fact p.Prime] (h8 : p % 8 = 3) (hc : (genFp p).compile = some P) (x : ZMod p)
    (hx : IsSquare x) (h0 : x ≠ 0) :
    (x ^ (digitVal P.WIN_LEN P.FOURTH_ROOT_EH * 2 ^ (P.WIN_LEN * P.FOURTH_ROOT_EL))) ^ 4 = x⁻¹ := by
  obtain ⟨-, -, eW, -, -, eF, eFl, -⟩ := GenFp.compile_some hc
  have e : digitVal P.WIN_LEN P.FOURTH_ROOT_EH * 2 ^ (P.WIN_LEN * P.FOURTH_ROOT_EL) = (p + 1) / 8 := by
    rw [eW, eF, eFl]
    show digitVal 5 (toDigits 5 _) * _ = _
    rw [toDigits_val (by norm_num)]
    exact Nat.div_mul_cancel (lowLoop_dvd _ _)
  rw [e, ← pow_mul]
  obtain ⟨y, rfl⟩ := hx
  have hy : y ≠ 0 := fun h => h0 (by rw [h, mul_zero])
  refine eq_inv_of_mul_eq_one_left ?_
  rw [← pow_succ, ← pow_two, ← pow_mul, show 2 * ((p + 1) / 8 * 4 + 1) = p - 1 by omega]
  exact ZMod.pow_card_sub_one_eq_one hy

example : (11).Prime ∧ 11 % 8 = 3 ∧ ∃ P, (genFp 11).compile = some P := by
  refine ⟨by norm_num, by norm_num, Option.isSome_iff_exists.mp ((GenFp.compile_isSome _).mpr ⟨by decide +kernel, ?_, by decide +kernel, by decide +kernel⟩)⟩
  exact (inverseMod64_spec (p := 11) (by norm_num)).2

/-- The field printed for the second modulus of the script, gen_fp.sage:26-27 (there called a prime of 381 bits; it has 384). -/
def fp384 : FpParams where
  N := 6
  BITLEN := 384
  MODULUS := [0xFFFFFFFFFFFFFFFF, 0xFFFFFFFFFFFFFFFF, 0xFFFFFFFFFFFFFFFF, 0xEC71669AB56776FF, 0x85180E0F93334C28, 0x9D46CC274AF4DE02]
  HALF_MODULUS := [0, 0, 0, 0x7638B34D5AB3BB80, 0x428C0707C999A614, 0x4EA36613A57A6F01]
  R_VAL := [1, 0, 0, 0x138E99654A988900, 0x7AE7F1F06CCCB3D7, 0x62B933D8B50B21FD]
  MINUS_R_VAL := [0xFFFFFFFFFFFFFFFE, 0xFFFFFFFFFFFFFFFF, 0xFFFFFFFFFFFFFFFF, 0xD8E2CD356ACEEDFF, 0xA301C1F26669851, 0x3A8D984E95E9BC05]
  DR_VAL := [3, 0, 0, 0x3AABCC2FDFC99B00, 0x70B7D5D146661B85, 0x282B9B8A1F2165F8]
  TR_VAL := [4, 0, 0, 0x4E3A65952A622400, 0xEB9FC7C1B332CF5C, 0x8AE4CF62D42C87F5]
  QR_VAL := [6, 0, 0, 0x7557985FBF933600, 0xE16FABA28CCC370A, 0x505737143E42CBF0]
  R2_VAL := [0x2E6846F25ECDA85B, 0xAC4D5D93236B3EE2, 0x78C7B40ECDDF6FCD, 0x5BCF5057B21EECFE, 0xAEFF66B80F9AB8AC, 0xD36D8E46D0006B9]
  P0I := 1
  TFIXDIV_VAL := [0x8D9B09026D53D22E, 0xBA296324EBC61E40, 0x7504B5BA250B3C, 0x6FF1374A924CF9F8, 0x7581A6B12661C711, 0x393E3F1061002B7F]
  TDEC_VAL := [0xAC4D5D93236B3EE2, 0x78C7B40ECDDF6FCD, 0xEA4C0FEE5EFE39FE, 0x3AB9F2BE111C3622, 0xC97716BA5FFC93E3, 0x1C82C908426C8718]
  WIN_LEN := 5
  SQRT_EH := [24, 29, 14, 22, 26, 10, 19, 6, 11, 28, 24, 14, 20, 16, 9, 19, 25, 4, 31, 0, 7, 0, 3, 5, 20, 0, 28, 13, 26, 11, 9, 7, 1, 19, 13, 20, 14, 2]
  SQRT_EL := 39
  FOURTH_ROOT_EH := [28, 14, 7, 11, 13, 21, 9, 19, 5, 14, 12, 7, 10, 24, 20, 25, 12, 18, 15, 16, 3, 16, 17, 2, 10, 0, 30, 6, 29, 21, 20, 19, 16, 25, 6, 10, 7, 1]
  FOURTH_ROOT_EL := 39
  P1 := 2638662695
  P1DIV_M := 11579133301369015444

theorem prime384 : fp384.p.Prime := by
  refine Morrison.prime_of_cert fp384.p 17087348441558586375623546170078653852338998432231414021598258581658388965014971112293785111933720292293553549398739
    4271837110389646593905886542519663463084749608057853505399564645414597241253742778073446277983430073073388387349685 3 200 (2 ^ 200 * 3) 385
    (by norm_num) (by norm_num) ?_ ?_ ?_ rfl ?_ ?_ ?_ ?_ ?_ ?_ ?_ <;> decide +kernel

/-- C86: the words need spare bits.  The second modulus named in the script, called a prime of 381 bits there, is a prime of 384 bits
and fills its words; the module compiles, but `sum_of_products`, and with it the multiplication of `Fp2`, is wrong: the carries
dropped in fp_gen.rs:1447-1482 matter. -/
theorem C86_full_words_fails : (genFp (165 * 4 * 2 ^ 198 * 3 ^ 111 - 1)).compile = some fp384 ∧ fp384.p = 165 * 4 * 2 ^ 198 * 3 ^ 111 - 1 ∧
    fp384.p.Prime ∧ fp384.p % 8 = 7 ∧ ¬ ∀ (u v : Fp2) (z w : F2 fp384), Rep2 fp384 u z → Rep2 fp384 v w → Rep2 fp384 (fp2Mul fp384 u v) (z * w) := by
  refine ⟨?_, by decide +kernel, prime384, by decide +kernel, fun H => ?_⟩
  · have i : inverseMod64 (165 * 4 * 2 ^ 198 * 3 ^ 111 - 1) = 1 := inverseMod64_one (by decide +kernel)
    have e9 : rustU64 (genFp (165 * 4 * 2 ^ 198 * 3 ^ 111 - 1)).P0I = some fp384.P0I := (congrArg rustU64 i).trans (by decide +kernel)
    apply GenFp.compile_eq (e9 := e9) <;> decide +kernel
  · have hf : Fact fp384.p.Prime := ⟨prime384⟩
    have hR : (fp384.R : ZMod fp384.p) ≠ 0 := by
      rw [Ne, ZMod.natCast_eq_zero_iff]
      decide +kernel
    let m : Limbs := (subLoop fp384.MODULUS [1, 0, 0, 0, 0, 0] false).1
    have hm : Rep fp384 m ((lval m : ZMod fp384.p) * (fp384.R : ZMod fp384.p)⁻¹) :=
      ⟨⟨by decide +kernel, by decide +kernel⟩, by rw [mul_assoc, inv_mul_cancel₀ hR, mul_one]⟩
    have h := (H ⟨m, m⟩ ⟨m, m⟩ ⟨_, _⟩ ⟨_, _⟩ ⟨hm, hm⟩ ⟨hm, hm⟩).2.2
    rw [F2.mul_im] at h
    have h' : (lval (fp2Mul fp384 ⟨m, m⟩ ⟨m, m⟩).x1 : ZMod fp384.p) * fp384.R = lval m * lval m + lval m * lval m := by
      rw [h]
      field_simp
    have h2 : (lval (fp2Mul fp384 ⟨m, m⟩ ⟨m, m⟩).x1 * fp384.R) % fp384.p = (lval m * lval m + lval m * lval m) % fp384.p := by
      refine (ZMod.natCast_eq_natCast_iff' _ _ _).mp ?_
      push_cast
      exact h'
    revert h2
    show ¬ _
    decide +kernel

/-- The field printed for a prime of 127 bits. -/
def fp127 : FpParams where
  N := 2
  BITLEN := 127
  MODULUS := [18446744073709551615, 6271893138357918527]
  HALF_MODULUS := [0, 3135946569178959264]
  R_VAL := [2, 5902957796993714560]
  MINUS_R_VAL := [18446744073709551613, 368935341364203967]
  DR_VAL := [5, 5534022455629510592]
  TR_VAL := [8, 5165087114265306624]
  QR_VAL := [11, 4796151772901102656]
  R2_VAL := [8270653316538821096, 2788074230906871070]
  P0I := 1
  TFIXDIV_VAL := [16583161610739818345, 1005644410846819750]
  TDEC_VAL := [17361640155042664222, 2812022196354223746]
  WIN_LEN := 5
  SQRT_EH := [8, 27, 4, 2, 10, 5, 10, 22, 7, 10, 24, 21]
  SQRT_EL := 13
  FOURTH_ROOT_EH := [20, 13, 2, 1, 21, 2, 5, 27, 3, 5, 28, 10]
  FOURTH_ROOT_EL := 13
  P1 := 2920577832
  P1DIV_M := 8680820083691865514

theorem prime127 : fp127.p.Prime := by
  refine Morrison.prime_of_cert fp127.p 38675232164576438171146628087554127181 32025072185394701493936795030097517303 3 70 (2 ^ 70 * 3) 128
    (by norm_num) (by norm_num) ?_ ?_ ?_ rfl ?_ ?_ ?_ ?_ ?_ ?_ ?_ <;> decide +kernel

/-- C86: a spare bit is not enough, and room for `3 p` in the words cannot be replaced by room for `2.94 p`.  For this prime of 127
bits in two words the module compiles, but the multiplication of `Fp2` is wrong. -/
theorem C86_spare_bit_fails : (genFp (3 * 2 ^ 70 * 32666110095614159 - 1)).compile = some fp127 ∧ fp127.p = 3 * 2 ^ 70 * 32666110095614159 - 1 ∧
    fp127.p.Prime ∧ fp127.p % 8 = 7 ∧ 2 * fp127.p ≤ fp127.R ∧ 294 * fp127.p ≤ 100 * fp127.R ∧
    ¬ ∀ (u v : Fp2) (z w : F2 fp127), Rep2 fp127 u z → Rep2 fp127 v w → Rep2 fp127 (fp2Mul fp127 u v) (z * w) := by
  refine ⟨?_, by decide +kernel, prime127, by decide +kernel, by decide +kernel, by decide +kernel, fun H => ?_⟩
  · have i : inverseMod64 (3 * 2 ^ 70 * 32666110095614159 - 1) = 1 := inverseMod64_one (by decide +kernel)
    have e9 : rustU64 (genFp (3 * 2 ^ 70 * 32666110095614159 - 1)).P0I = some fp127.P0I := (congrArg rustU64 i).trans (by decide +kernel)
    apply GenFp.compile_eq (e9 := e9) <;> decide +kernel
  · have hf : Fact fp127.p.Prime := ⟨prime127⟩
    have hR : (fp127.R : ZMod fp127.p) ≠ 0 := by
      rw [Ne, ZMod.natCast_eq_zero_iff]
      decide +kernel
    let a : Limbs := [18446744073709551615, 6271893138357918526]
    let b : Limbs := [1, 6271893138357918527]
    have ha : Rep fp127 a ((lval a : ZMod fp127.p) * (fp127.R : ZMod fp127.p)⁻¹) :=
      ⟨⟨by decide +kernel, by decide +kernel⟩, by rw [mul_assoc, inv_mul_cancel₀ hR, mul_one]⟩
    have hb : Rep fp127 b ((lval b : ZMod fp127.p) * (fp127.R : ZMod fp127.p)⁻¹) :=
      ⟨⟨by decide +kernel, by decide +kernel⟩, by rw [mul_assoc, inv_mul_cancel₀ hR, mul_one]⟩
    have h := (H ⟨a, a⟩ ⟨b, b⟩ ⟨_, _⟩ ⟨_, _⟩ ⟨ha, ha⟩ ⟨hb, hb⟩).2.2
    rw [F2.mul_im] at h
    have h' : (lval (fp2Mul fp127 ⟨a, a⟩ ⟨b, b⟩).x1 : ZMod fp127.p) * fp127.R = lval a * lval b + lval a * lval b := by
      rw [h]
      field_simp
    have h2 : (lval (fp2Mul fp127 ⟨a, a⟩ ⟨b, b⟩).x1 * fp127.R) % fp127.p = (lval a * lval b + lval a * lval b) % fp127.p := by
      refine (ZMod.natCast_eq_natCast_iff' _ _ _).mp ?_
      push_cast
      exact h'
    revert h2
    show ¬ _
    decide +kernel


/-- C87: `Array2Num` adds up the words of an array (any integers), least significant first. -/
theorem C87_array2Num (array : List Nat) (nbyte : Nat) : array2Num array nbyte = digitVal (8 * nbyte) array := by
  have h3 : nbyte <<< 3 = 8 * nbyte := by rw [Nat.shiftLeft_eq]; ring
  have key : ∀ l : List Nat, (l.reverse.foldl (fun num element => (num + element) <<< (8 * nbyte)) 0) = 2 ^ (8 * nbyte) * digitVal (8 * nbyte) l := by
    intro l
    induction l with
    | nil => simp [digitVal]
    | cons d l ih =>
      rw [List.reverse_cons, List.foldl_append, ih, List.foldl_cons, List.foldl_nil, Nat.shiftLeft_eq, digitVal]
      ring
  rw [array2Num, h3, key, Nat.shiftRight_eq_div_pow, Nat.mul_div_cancel_left _ (by positivity)]

/-- C87: `Num2Array` returns words (below `2^(8 nbyte)`) of the right value, without leading zeros if no length is asked for, and as
many words as asked for if the number fits; `Array2Num` undoes it. -/
theorem C87_num2Array (num N : Nat) {nbyte : Nat} (hb : 1 ≤ nbyte) :
    (∀ d ∈ num2Array num nbyte N, d < 2 ^ (8 * nbyte)) ∧ digitVal (8 * nbyte) (num2Array num nbyte N) = num ∧
    array2Num (num2Array num nbyte N) nbyte = num ∧
    (num ≠ 0 → ∃ d, (num2Array num nbyte).getLast? = some d ∧ d ≠ 0) ∧
    (N ≠ 0 → (num < (2 ^ (8 * nbyte)) ^ N ↔ (num2Array num nbyte N).length = N)) := by
  have h3 : nbyte <<< 3 = 8 * nbyte := by rw [Nat.shiftLeft_eq]; ring
  have hw : 1 ≤ 8 * nbyte := by omega
  have pad : ∀ (l : List Nat) (k : Nat), digitVal (8 * nbyte) (l ++ List.replicate k 0) = digitVal (8 * nbyte) l := by
    intro l k
    induction l with
    | nil =>
      induction k with
      | zero => rfl
      | succ k ih => rw [List.nil_append] at ih ⊢; rw [List.replicate_succ, show digitVal (8 * nbyte) [] = 0 from rfl, digitVal, ih]; rfl
    | cons d l ih => rw [List.cons_append, digitVal, ih, digitVal]
  have e : num2Array num nbyte N = toDigits (8 * nbyte) num ++ List.replicate (if N ≠ 0 then N - (toDigits (8 * nbyte) num).length else 0) 0 := by
    unfold num2Array toDigits
    simp only [h3]
    split_ifs <;> simp
  have e0 : num2Array num nbyte = toDigits (8 * nbyte) num := by
    unfold num2Array toDigits
    simp [h3]
  have val : digitVal (8 * nbyte) (num2Array num nbyte N) = num := by rw [e, pad, toDigits_val hw]
  refine ⟨fun d hd => ?_, val, by rw [C87_array2Num, val], fun h => ?_, fun hN => ?_⟩
  · rw [e, List.mem_append] at hd
    rcases hd with hd | hd
    · exact digitsLoop_lt hd
    · rw [List.eq_of_mem_replicate hd]; positivity
  · rw [e0]; exact (toDigits_win hw h).2
  · rw [e, List.length_append, List.length_replicate, if_pos hN, ← toDigits_length hw]
    omega

example : array2Num [5, 1, 2] 4 = 5 + 2 ^ 32 + 2 * 2 ^ 64 ∧ num2Array (2 ^ 32 + 5) 4 3 = [5, 1, 0] ∧ num2Array (2 ^ 64) 4 2 = [0, 0, 1] := by
  decide

/-- `d1`, temp.py:3-4. -/
def tmpD1 : Nat :=
  3 ^ 6 * 19 ^ 2 * 29 ^ 2 * 37 ^ 2 * 83 ^ 2 * 139 ^ 2 * 167 ^ 2 * 251 ^ 2 * 419 ^ 2 * 421 ^ 2 * 701 ^ 2 * 839 ^ 2 * 1009 ^ 2 *
  1259 ^ 2 * 3061 ^ 2 * 3779 ^ 2

/-- `d2`, temp.py:5-7. -/
def tmpD2 : Nat :=
  5 ^ 4 * 7 ^ 3 * 11 ^ 2 * 13 ^ 2 * 17 ^ 2 * 41 ^ 2 * 43 ^ 2 * 71 ^ 2 * 89 ^ 2 * 127 ^ 2 * 211 ^ 2 * 281 ^ 2 * 503 ^ 2 * 631 ^ 2 *
  2309 ^ 2 * 2521 ^ 2 * 2647 ^ 2 * 2729 ^ 2

/-- `dA`, temp.py:8-9. -/
def tmpDA : Nat :=
  59 ^ 2 * 3023 ^ 2 * 3359 ^ 2 * 4409 ^ 2 * 5039 ^ 2 * 6299 ^ 2 * 6719 ^ 2 * 9181 ^ 2 * 19531 ^ 2 * 22679 ^ 2 * 41161 ^ 2

/-- `dA1`, temp.py:10. -/
def tmpDA1 : Nat :=
  59 ^ 2 * 6299 ^ 2 * 6719 ^ 2 * 9181 ^ 2

/-- `dA2`, temp.py:11. -/
def tmpDA2 : Nat :=
  3023 ^ 2 * 3359 ^ 2 * 4409 ^ 2 * 5039 ^ 2 * 19531 ^ 2 * 22679 ^ 2 * 41161 ^ 2

/-- `m1`, temp.py:14. -/
def tmpM1 : Nat :=
  1492184945093476592520242083925044182103921

/-- `m2`, temp.py:15. -/
def tmpM2 : Nat :=
  25617331336429939300166693069

/-- `basis_order`, temp.py:43-46. -/
def tmpOrder : Nat :=
  2 ^ 634 * 3 ^ 6 * 5 ^ 4 * 7 ^ 3 * 11 ^ 2 * 13 ^ 2 * 17 ^ 2 * 19 ^ 2 * 29 ^ 2 * 37 ^ 2 * 41 ^ 2 * 43 ^ 2 * 59 * 71 ^ 3 * 83 ^ 2 *
  89 ^ 2 * 127 ^ 2 * 139 ^ 2 * 167 ^ 2 * 211 ^ 2 * 251 ^ 2 * 281 ^ 2 * 419 ^ 2 * 421 ^ 2 * 503 ^ 2 * 631 ^ 2 * 701 ^ 2 * 839 ^ 2 *
  1009 ^ 2 * 1259 ^ 2 * 2309 ^ 2 * 2521 ^ 2 * 2647 ^ 2 * 2729 ^ 2 * 3023 * 3061 ^ 2 * 3359 * 3779 ^ 2 * 4409 * 5039 * 6299 * 6719
  * 9181 * 19531 * 22679 * 41161

/-- `Px`, temp.py:39. -/
def tmpPx : Nat :=
  0xb22cf14c3787cd20b3e1eada2117d2996a50298e79660009eedfa608aa257d9e8071259d6cbbc4ff5f9f871351240711d39cf94e4c18f3cc5a3fa905410682435f3201f334e7b86db6157567a513de96e94d04f4c29371ab1930e86c1850765979c7a4d84690dd347ccc91cc769ab73da65c8d0aac8160ac9ff398044d58e03b86de0e3b63074bec0ae9ba18c569d14412c7c30cff9c9295be9b2dafeece8954a26

/-- `Py`, temp.py:40. -/
def tmpPy : Nat :=
  0x522f3c01b38a431d9b5090140dd8b71cd578046c1fdd942f3f62e5d73b8e567a03cfd89660855a08bda905f8561a4f79aca23d08570ddcae0b5181a55aa14f763e2af6efdb934f17ec4690de842938d6d487c22fd699b440b459a1d9825932bec3f1eadd94c491708a5cccfb6b687006a4426df07e9edb6820930e54c3ed0e8784de5fbd874e2e731e233169daa5116a1beda4b2092e262bd3ba926641d45b8a118

/-- `Qx`, temp.py:41. -/
def tmpQx : Nat :=
  0x11238ff030c55a5c6dd642567069e2ca09eddfda10165cc7a20960022e3792fa436bcc5cf225a610eb25a54ba2f12be6825a194e42014a0e15f2503c9cce4755c2fcb3455f058cd7e1e1653751c72e982b4431ccd53267606a86cdcaa700a0eca73209516ea0d30f9713b46ee18b995b528cf58bece0a9404f35f9ec70ec0214422eec42c1d4b79fe4e0ca9f07d54a0cd6099ce149fd474bb80154fcdf4057795a20

/-- `Qy`, temp.py:42. -/
def tmpQy : Nat :=
  0x138fdc3012d1e48dd9048717fb8aee0c371ee0d4298f428d2ed71edd64cae0736797a611bad0d873b395a49d4b643d8b6d87ae5d9f859cd30a114a746a5a1fd93a438fa82803240603feb34dc5908c4abe6e1e3d6b1970db5f9d1995b5152d368056c6e44780fa7ee4a716239137be42d449069d2e0d2d3c5bf05fc9efaa795d975babf26a97d0b7307d4009114682f7effe2cda0f3338024bf01cae4655b7317ed4

/-- `p_array`, temp.py:16-38. -/
def tmpModulus : List Nat := [
  0xFFFFFFFFFFFFFFFF, 0xFFFFFFFFFFFFFFFF, 0xFFFFFFFFFFFFFFFF, 0xFFFFFFFFFFFFFFFF, 0xFFFFFFFFFFFFFFFF, 0xFFFFFFFFFFFFFFFF,
  0xFFFFFFFFFFFFFFFF, 0xFFFFFFFFFFFFFFFF, 0xFFFFFFFFFFFFFFFF, 0x43FFFFFFFFFFFFFF, 0x9AC3245C4D7BE6B3, 0x21D7DCD797059B7B,
  0x8F19A73E323F6569, 0x841FED4773CFDB16, 0x02979D50DD13D09A, 0x01712922BAF59934, 0xBD1C756E54F72C15, 0xF6B3CF47C54370FE,
  0xCEC87BD4C1480F2B, 0x11CF13E54B11406F, 0x000000000000176C]

/-- C87: the word arrays of fields.rs are what temp.py prints for its numbers, the modulus is that of `p_array`, the points stored are
those of the script as plain numbers (the cause of C79: no Montgomery form), the assertion at the end of the script holds, and the order of the basis is `p + 1`. -/
theorem C87_constants :
    D1 = num2Array tmpD1 4 ∧ D2 = num2Array tmpD2 4 ∧ DA = num2Array tmpDA 4 ∧ DA1 = num2Array tmpDA1 4 ∧ DA2 = num2Array tmpDA2 4 ∧
    M1 = num2Array tmpM1 4 ∧ M2 = num2Array tmpM2 4 ∧ BASIS_ORDER = num2Array tmpOrder 4 ∧
    BIGUINT_MODULUS = num2Array (array2Num tmpModulus 8) 4 ∧ array2Num tmpModulus 8 = festaFp.p ∧
    tmpOrder = festaFp.p + 1 ∧
    p0x.map UInt64.toNat = num2Array tmpPx 8 21 ∧ p0y.map UInt64.toNat = num2Array tmpPy 8 21 ∧
    q0x.map UInt64.toNat = num2Array tmpQx 8 21 ∧ q0y.map UInt64.toNat = num2Array tmpQy 8 21 ∧
    tmpM1 ^ 2 * (tmpD1 * tmpDA1) + tmpM2 ^ 2 * (tmpD2 * tmpDA2) = 2 ^ THETA_ISOGENY_LENGTH := by
  refine ⟨?_, ?_, ?_, ?_, ?_, ?_, ?_, ?_, ?_, ?_, ?_, ?_, ?_, ?_, ?_, ?_⟩ <;> decide +kernel

end Festa
