import Verif.Model.Fp
/-! The FESTA field constants, transcribed from `/repo/src/fields.rs` (module `FpFESTA`). -/
namespace Festa

/-- The constants of `FpFESTA`, fields.rs:2-255. -/
def festaFp : FpParams where
  N := 21
  BITLEN := 1293
  MODULUS := [
    18446744073709551615, 18446744073709551615, 18446744073709551615,
    18446744073709551615, 18446744073709551615, 18446744073709551615,
    18446744073709551615, 18446744073709551615, 18446744073709551615,
    4899916394579099647, 11151797081155036851, 2438660541754219387,
    10311456707414287721, 9520589028425980694, 186790880191172762,
    103909495548516660, 13626895689248615445, 17776780061320638718,
    14900295520861294379, 1283266294351741039, 5996]
  HALF_MODULUS := [
    0, 0, 0,
    0, 0, 0,
    0, 0, 0,
    11673330234144325632, 14799270577432294233, 10442702307731885501,
    5155728353707143860, 4760294514212990347, 93395440095586381,
    9275326784629034138, 6813447844624307722, 18111762067515095167,
    16673519797285422997, 641633147175870519, 2998]
  R_VAL := [
    3076472657737927, 0, 0,
    0, 0, 0,
    0, 0, 0,
    2594073385365405696, 8717671578411946182, 12034247887416854051,
    9352317531213939455, 3989170799314111531, 3906403394668966178,
    14436930891415866508, 572886144607327484, 6130860496692709026,
    1175949037848265128, 15317894986998816742, 2615]
  MINUS_R_VAL := [
    18443667601051813688, 18446744073709551615, 18446744073709551615,
    18446744073709551615, 18446744073709551615, 18446744073709551615,
    18446744073709551615, 18446744073709551615, 18446744073709551615,
    2305843009213693951, 2434125502743090669, 8851156728046916952,
    959139176200348265, 5531418229111869163, 14727131559231758200,
    4113722677842201767, 13054009544641287960, 11645919564627929692,
    13724346483013029251, 4412115381062475913, 3380]
  DR_VAL := [
    6152945315475854, 0, 0,
    0, 0, 0,
    0, 0, 0,
    5188146770730811392, 17435343156823892364, 5621751701124156486,
    257890988718327295, 7978341598628223063, 7812806789337932356,
    10427117709122181400, 1145772289214654969, 12261720993385418052,
    2351898075696530256, 12189045900288081868, 5231]
  TR_VAL := [
    9229417973213782, 0, 0,
    0, 0, 0,
    0, 0, 0,
    2882303761517117440, 15001217654080801695, 15217339046786791150,
    17745495886227530645, 2446923369516353899, 11532419303815725772,
    6313395031279979632, 6538506818282918625, 615801428757488359,
    7074295666393052621, 7776930519225605954, 1851]
  QR_VAL := [
    12305890630951709, 0, 0,
    0, 0, 0,
    0, 0, 0,
    5476377146882523136, 5272145158783196261, 8804842860494093586,
    8651069343731918485, 6436094168830465431, 15438822698484691950,
    2303581848986294524, 7111392962890246110, 6746661925450197385,
    8250244704241317749, 4648081432514871080, 4467]
  R2_VAL := [
    11475979233398900162, 2030759793100187338, 3203916399565912886,
    71475140479728386, 4013390581249773770, 10764206302106175247,
    14280086140584053196, 17456675198553727711, 6925082901455958987,
    526785567354666795, 17387250889087773485, 15578967432082817392,
    17325336801149227863, 9859535521232072007, 13169109159832517491,
    11493509420932643500, 12431953191925091031, 8147371970831200970,
    13614777238482041342, 8572560630000280047, 3472]
  P0I := 1
  TFIXDIV_VAL := [
    6327521124994555247, 14862396649991639651, 18129291255292395048,
    11846600114718409671, 80434591142948328, 9991907167856847462,
    15141849689524058657, 487941854726004599, 11219241083677786070,
    463478674700383946, 4418197472943279243, 14274966455950436810,
    4359220915266522376, 10482646546866885082, 10715914524021089561,
    16074503179765018528, 16359915581436907489, 17862670303971141269,
    8951753119030155108, 15921357070346144835, 1490]
  TDEC_VAL := [
    2030759793100187338, 3203916399565912886, 71475140479728386,
    4013390581249773770, 10764206302106175247, 14280086140584053196,
    17456675198553727711, 6925082901455958987, 10326618356512866091,
    8156682782614032474, 8751193751920718424, 18391733907345138968,
    16271931899255962691, 4829877974835650940, 9944933514326257581,
    1192811542505319764, 15671163048847456490, 8731944029775767718,
    7101339575399154676, 4414426554326119283, 3730]
  WIN_LEN := 5
  SQRT_EH := [
    4, 26, 12, 13, 30, 29, 21, 9, 28, 2, 9, 6, 12, 13, 14, 15, 27, 12, 1, 14,
    25, 11, 19, 27, 23, 14, 8, 18, 22, 18, 29, 7, 18, 17, 15, 14, 26, 12, 28, 17,
    22, 24, 22, 31, 28, 25, 29, 8, 13, 31, 7, 8, 8, 13, 2, 26, 19, 8, 23, 1,
    21, 14, 30, 18, 2, 0, 13, 18, 25, 26, 11, 23, 2, 9, 10, 2, 23, 0, 20, 2,
    12, 25, 29, 9, 5, 23, 21, 14, 28, 8, 15, 29, 15, 24, 13, 8, 5, 30, 17, 30,
    28, 25, 26, 30, 11, 25, 3, 16, 20, 0, 19, 26, 27, 3, 18, 29, 28, 23, 1, 8,
    17, 24, 18, 10, 30, 9, 28, 25, 17, 0, 27, 14, 1]
  SQRT_EL := 126
  FOURTH_ROOT_EH := [
    2, 13, 22, 6, 31, 30, 26, 4, 14, 17, 4, 3, 22, 6, 23, 23, 13, 22, 0, 23,
    28, 21, 25, 29, 11, 7, 4, 9, 11, 25, 30, 3, 25, 24, 7, 7, 13, 6, 30, 8,
    11, 12, 27, 15, 30, 28, 14, 20, 22, 31, 3, 4, 20, 6, 1, 29, 9, 20, 27, 16,
    10, 7, 15, 9, 1, 16, 6, 25, 12, 29, 21, 11, 17, 4, 5, 17, 11, 0, 10, 1,
    22, 28, 30, 20, 18, 27, 10, 7, 14, 20, 23, 30, 7, 28, 6, 20, 2, 31, 8, 15,
    30, 12, 13, 31, 21, 28, 1, 8, 10, 16, 9, 29, 29, 1, 25, 14, 30, 27, 0, 20,
    8, 12, 9, 5, 31, 4, 30, 28, 8, 16, 13, 23]
  FOURTH_ROOT_EL := 126
  P1 := 3143667320
  P1DIV_M := 6755719943463976019

end Festa
