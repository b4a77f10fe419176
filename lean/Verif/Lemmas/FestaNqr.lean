import Verif.Lemmas.Fp2
import Verif.Model.FestaConsts
import Mathlib.Tactic.NormNum.LegendreSymbol
/-! The constant `NQR_RE`: `NQR_RE^2 + 1` is not a square modulo `p`. -/
namespace Festa

/-- The residue stored in `NQR_RE`. -/
def nqrVal : Nat := 85465444760251647043200531866806010650062133800213355539661279306662159607482839822797016326449523391157281075635273844674191359071133685155700846387699170613650104702674156795192157899572172047762839680755868163962182535324002607335291349888456998316966489870101875450398478630791194418187748054771361557839179399131298384607996061381589340053230664436497825675736947269395087017982574567

theorem nqr_jacobi : jacobiSym
    199463332471280567295374922206867821518644021481130978206786026324497932162338521572896692921558882864859880091934016247058527051811263711787568071196530042749910868132988094500609293730694531915075185310708410926576359497151424446948839973727466032697880391993309987404115385097164405137506842876790804134496132124755448242554342800493761268334523971557436551664899298968018803449006197
    124813370954946046625522215052328020445810037362111132960613286328441356722257752720010881927037475586399470137805050608043019087433283648739803958123964308223782110847178313188451195825370794537039688326247916639251700565349771267011273687997230352082398376708996664995018346239500252227115749220824758109724758742435933984445935095514141882211364143691731115285217804939575916379504639999 = -1 := by
  norm_num

theorem rep_nqrRe : Rep festaFp nqrRe (nqrVal : ZMod festaFp.p) := by
  refine ⟨by constructor <;> decide +kernel, ?_⟩
  have h : lval nqrRe ≡ nqrVal * festaFp.R [MOD festaFp.p] := by decide +kernel
  have := (ZMod.natCast_eq_natCast_iff _ _ _).2 h
  rw [this]; push_cast; rfl

theorem nqr_norm : ¬ IsSquare ((nqrVal : ZMod festaFp.p) * nqrVal + 1 * 1) := by
  have h : nqrVal * nqrVal + 1 ≡
    199463332471280567295374922206867821518644021481130978206786026324497932162338521572896692921558882864859880091934016247058527051811263711787568071196530042749910868132988094500609293730694531915075185310708410926576359497151424446948839973727466032697880391993309987404115385097164405137506842876790804134496132124755448242554342800493761268334523971557436551664899298968018803449006197
      [MOD festaFp.p] := by decide +kernel
  have := (ZMod.natCast_eq_natCast_iff _ _ _).2 h
  push_cast at this
  rw [mul_one, this]
  have hp : festaFp.p =
    124813370954946046625522215052328020445810037362111132960613286328441356722257752720010881927037475586399470137805050608043019087433283648739803958123964308223782110847178313188451195825370794537039688326247916639251700565349771267011273687997230352082398376708996664995018346239500252227115749220824758109724758742435933984445935095514141882211364143691731115285217804939575916379504639999 := by
    decide +kernel
  have h2 := nqr_jacobi
  rw [← hp] at h2
  have h3 := ZMod.nonsquare_of_jacobiSym_eq_neg_one h2
  push_cast at h3
  exact h3

end Festa
