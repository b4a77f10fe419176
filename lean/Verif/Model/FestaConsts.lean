import Verif.Model.FestaParams
/-!
The scheme constants of `/repo/src/fields.rs` (module `FpFESTAExt`), transcribed literally.
`[u32; k]` arrays are lists of naturals below `2^32`; `BigUint::from_slice` is `ofSlice`.
-/
namespace Festa

/-- `BigUint::from_slice` (num-bigint): little-endian base-`2^32` digits (used throughout festa.rs,
e.g. festa.rs:34-43). -/
def ofSlice : List Nat → Nat
  | [] => 0
  | d :: ds => d + 2 ^ 32 * ofSlice ds

/-- `NQR_RE`, fields.rs:269-291. -/
def nqrRe : Limbs := [
  1467698028596250701, 4863363453950948822, 6713166561115419753,
  15122225326387614525, 14107370338772142390, 14892442734375318567,
  16321812489339452947, 466097758979828724, 13253230747367079372,
  10273926545825200905, 11611013983876014521, 4088250388676912071,
  2403586616958726792, 2032113680422573867, 15558172097461439719,
  14796307030713060463, 4522319048592695397, 10869608413649963719,
  12189993625324350251, 11878235496259204831, 4167]

/-- `P0x`, fields.rs:294-316. -/
def p0x : Limbs := [
  12887893577141930534, 8948881131313912809, 11214398850759672108,
  16204996203442520238, 4143387341182187629, 14470253379081390591,
  14491676957633403493, 8812845632572311500, 1046736740509128604,
  15010299822951018899, 6293352018646494868, 2314625145664625505,
  18055023335571731955, 14957831782387205539, 17902148346281270585,
  1322324136136013305, 18041572537109440519, 187154017577639661,
  2210601188106802853, 14921766387642927934, 2850]

/-- `P0y`, fields.rs:317-339. -/
def p0y : Limbs := [
  12188539518411383064, 15729701938757025083, 3681303100252398014,
  16572077250374480354, 3523306116163860557, 2800966194544673289,
  14758215398981659204, 2210661913775769765, 11105199543315852351,
  8944990439929547589, 7569961921320676680, 12641320175974579908,
  1736794795289306082, 2580709306287186101, 10403180318675147466,
  18269245549387484122, 3340953736538726460, 9243288581240452086,
  648871141589503319, 17564068476831783349, 1314]

/-- `Q0x`, fields.rs:340-362. -/
def q0x : Limbs := [
  6124015060755503648, 11304397891848353793, 14600397129610221065,
  17024382660771833056, 18008893168897245742, 17693496010711519029,
  13001577163954803340, 671439456469751571, 14828848344212481842,
  3588477415566895750, 7293388037471873860, 12917835583624569313,
  5781668431410873084, 1823467472436467186, 11910792796218753626,
  14725911125108517669, 6918142793818456939, 16130222703612764681,
  4780131654579128813, 10371843566016949718, 4387]

/-- `Q0y`, fields.rs:363-385. -/
def q0y : Limbs := [
  2066666612969275092, 3231912395249175536, 4614238287760453630,
  12390082725123928189, 6902311419381651291, 476587769699523568,
  1595278361620567113, 14331658533483766951, 1843578725035573334,
  2179015551728967581, 12920200130615492206, 10351567737465471998,
  5365029991419034179, 12564373931644094993, 11861719887465115015,
  11966551091047543701, 2224044613502723991, 16200619454832127703,
  9734525693702453022, 15866202179918223620, 5007]

/-- `D1`, fields.rs:388-391. -/
def D1 : List Nat := [
  3975300793, 1785015618, 547416509, 2405648072, 1660105915, 2540255084,
  1017668071, 1813717928, 1]

/-- `D2`, fields.rs:410-413. -/
def D2 : List Nat := [
  3909311967, 2665228004, 3019757808, 192244275, 1774929180, 1873025588,
  1294292294, 3065324646, 13]

/-- `DA`, fields.rs:435-438. -/
def DA : List Nat := [
  1995744257, 1605890887, 2588949433, 784628118, 1854137503, 3888913565,
  3960159984, 2824691140, 76787]

/-- `DA1`, fields.rs:453-453. -/
def DA1 : List Nat := [
  2462988665, 3412116796, 28491595]

/-- `DA2`, fields.rs:455-457. -/
def DA2 : List Nat := [
  1912120521, 1586346550, 853428645, 2062521108, 23199965, 11575360]

/-- `M1`, fields.rs:468-468. -/
def M1 : List Nat := [
  1875097457, 3394904937, 2971642870, 590271737, 4385]

/-- `M2`, fields.rs:469-469. -/
def M2 : List Nat := [
  982151373, 1769168082, 1388718314]

/-- `BASIS_ORDER`, fields.rs:478-485. -/
def BASIS_ORDER : List Nat := [
  0, 0, 0, 0, 0, 0,
  0, 0, 0, 0, 0, 0,
  0, 0, 0, 0, 0, 0,
  0, 1140850688, 1299965619, 2596480092, 2533727099, 567794903,
  843015529, 2400823102, 1943001878, 2216684871, 3709063322, 43490640,
  3136657716, 24193314, 1425484821, 3172758894, 3309531390, 4138979143,
  3242725163, 3469245396, 1259421807, 298783717, 5996]

/-- `BIGUINT_MODULUS`, fields.rs:487-494. -/
def BIGUINT_MODULUS : List Nat := [
  4294967295, 4294967295, 4294967295, 4294967295, 4294967295, 4294967295,
  4294967295, 4294967295, 4294967295, 4294967295, 4294967295, 4294967295,
  4294967295, 4294967295, 4294967295, 4294967295, 4294967295, 4294967295,
  4294967295, 1140850687, 1299965619, 2596480092, 2533727099, 567794903,
  843015529, 2400823102, 1943001878, 2216684871, 3709063322, 43490640,
  3136657716, 24193314, 1425484821, 3172758894, 3309531390, 4138979143,
  3242725163, 3469245396, 1259421807, 298783717, 5996]

/-- `D1_FACTORED`, fields.rs:392-409. -/
def D1_FACTORED : List (Nat × Nat) := [
  (3, 6), (19, 2), (29, 2), (37, 2), (83, 2), (139, 2),
  (167, 2), (251, 2), (419, 2), (421, 2), (701, 2), (839, 2),
  (1009, 2), (1259, 2), (3061, 2), (3779, 2)]

/-- `D2_FACTORED`, fields.rs:414-433. -/
def D2_FACTORED : List (Nat × Nat) := [
  (5, 4), (7, 3), (11, 2), (13, 2), (17, 2), (41, 2),
  (43, 2), (71, 2), (89, 2), (127, 2), (211, 2), (281, 2),
  (503, 2), (631, 2), (2309, 2), (2521, 2), (2647, 2), (2729, 2)]

/-- `DA_FACTORED`, fields.rs:439-451. -/
def DA_FACTORED : List (Nat × Nat) := [
  (59, 2), (3023, 2), (3359, 2), (4409, 2), (5039, 2), (6299, 2),
  (6719, 2), (9181, 2), (19531, 2), (22679, 2), (41161, 2)]

/-- `DA1_FACTORED`, fields.rs:454-454. -/
def DA1_FACTORED : List (Nat × Nat) := [
  (59, 1), (6299, 1), (6719, 1), (9181, 1)]

/-- `DA2_FACTORED`, fields.rs:458-466. -/
def DA2_FACTORED : List (Nat × Nat) := [
  (3023, 1), (3359, 1), (4409, 1), (5039, 1), (19531, 1), (22679, 1),
  (41161, 1)]

/-- `L_POWER`, fields.rs:473. -/
def L_POWER : Nat := 634

/-- `THETA_ISOGENY_LENGTH`, fields.rs:475. -/
def THETA_ISOGENY_LENGTH : Nat := 632

/-- `THETA_STRATEGY`, fields.rs:497-520. -/
def THETA_STRATEGY : List Nat := [
  233, 144, 89, 55, 42, 34, 21, 13, 5, 3, 2, 1, 1, 1, 1, 1, 2, 1, 1, 1, 8, 5, 3, 2,
  1, 1, 1, 1, 1, 2, 1, 1, 1, 3, 2, 1, 1, 1, 1, 1, 13, 8, 5, 3, 2, 1, 1, 1,
  1, 1, 2, 1, 1, 1, 3, 2, 1, 1, 1, 1, 1, 5, 3, 2, 1, 1, 1, 1, 1, 2, 1, 1,
  1, 13, 8, 8, 5, 3, 2, 1, 1, 1, 1, 1, 2, 1, 1, 1, 3, 2, 1, 1, 1, 1, 1, 3,
  2, 1, 1, 1, 1, 1, 5, 3, 2, 1, 1, 1, 1, 1, 2, 1, 1, 1, 21, 13, 8, 5, 3, 2,
  1, 1, 1, 1, 1, 2, 1, 1, 1, 3, 2, 1, 1, 1, 1, 1, 5, 3, 2, 1, 1, 1, 1, 1,
  2, 1, 1, 1, 8, 5, 3, 2, 1, 1, 1, 1, 1, 2, 1, 1, 1, 3, 2, 1, 1, 1, 1, 1,
  34, 21, 13, 8, 5, 3, 2, 1, 1, 1, 1, 1, 2, 1, 1, 1, 3, 2, 1, 1, 1, 1, 1, 5,
  3, 2, 1, 1, 1, 1, 1, 2, 1, 1, 1, 8, 5, 3, 2, 1, 1, 1, 1, 1, 2, 1, 1, 1,
  3, 2, 1, 1, 1, 1, 1, 13, 8, 5, 3, 2, 1, 1, 1, 1, 1, 2, 1, 1, 1, 3, 2, 1,
  1, 1, 1, 1, 5, 3, 2, 1, 1, 1, 1, 1, 2, 1, 1, 1, 55, 34, 21, 13, 8, 5, 3, 2,
  1, 1, 1, 1, 1, 2, 1, 1, 1, 3, 2, 1, 1, 1, 1, 1, 5, 3, 2, 1, 1, 1, 1, 1,
  2, 1, 1, 1, 8, 5, 3, 2, 1, 1, 1, 1, 1, 2, 1, 1, 1, 3, 2, 1, 1, 1, 1, 1,
  13, 8, 5, 3, 2, 1, 1, 1, 1, 1, 2, 1, 1, 1, 3, 2, 1, 1, 1, 1, 1, 5, 3, 2,
  1, 1, 1, 1, 1, 2, 1, 1, 1, 21, 13, 8, 5, 3, 2, 1, 1, 1, 1, 1, 2, 1, 1, 1,
  3, 2, 1, 1, 1, 1, 1, 5, 3, 2, 1, 1, 1, 1, 1, 2, 1, 1, 1, 8, 5, 3, 2, 1,
  1, 1, 1, 1, 2, 1, 1, 1, 3, 2, 1, 1, 1, 1, 1, 89, 55, 34, 21, 13, 8, 5, 3, 2,
  1, 1, 1, 1, 1, 2, 1, 1, 1, 3, 2, 1, 1, 1, 1, 1, 5, 3, 2, 1, 1, 1, 1, 1,
  2, 1, 1, 1, 8, 5, 3, 2, 1, 1, 1, 1, 1, 2, 1, 1, 1, 3, 2, 1, 1, 1, 1, 1,
  13, 8, 5, 3, 2, 1, 1, 1, 1, 1, 2, 1, 1, 1, 3, 2, 1, 1, 1, 1, 1, 5, 3, 2,
  1, 1, 1, 1, 1, 2, 1, 1, 1, 21, 13, 8, 5, 3, 2, 1, 1, 1, 1, 1, 2, 1, 1, 1,
  3, 2, 1, 1, 1, 1, 1, 5, 3, 2, 1, 1, 1, 1, 1, 2, 1, 1, 1, 8, 5, 3, 2, 1,
  1, 1, 1, 1, 2, 1, 1, 1, 3, 2, 1, 1, 1, 1, 1, 34, 21, 13, 8, 5, 3, 2, 1, 1,
  1, 1, 1, 2, 1, 1, 1, 3, 2, 1, 1, 1, 1, 1, 5, 3, 2, 1, 1, 1, 1, 1, 2, 1,
  1, 1, 8, 5, 3, 2, 1, 1, 1, 1, 1, 2, 1, 1, 1, 3, 2, 1, 1, 1, 1, 1, 13, 8,
  5, 3, 2, 1, 1, 1, 1, 1, 2, 1, 1, 1, 3, 2, 1, 1, 1, 1, 1, 5, 3, 2, 1, 1,
  1, 1, 1, 2, 1, 1, 1]

end Festa
