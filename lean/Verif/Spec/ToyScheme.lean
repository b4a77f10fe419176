import Verif.Spec.ToyField
import Verif.Model.Festa
/-!
Data of a small version of the whole scheme, over the field of `Verif/Spec/ToyField.lean`: constants in place of those of
festa.rs:1-33, a key pair, an input of the trapdoor function and its value.  The theorems in
`Verif/Props/SchemeCase.lean` say what these data are; the comments here are only a guide.
-/
namespace Festa

/-- Degrees `d1 = 7^3`, `d2 = 13^2`, `dA1 = 41^2`, `dA2 = 43^2` with `dA1 d1 + 5^2 dA2 d2 = 2^23`. -/
def toyC : Consts where
  basisOrder := toyP + 1
  d1 := 343
  d2 := 169
  dA1 := 1681
  dA2 := 1849
  m1 := 1
  m2 := 5
  f1 := [(7, 3)]
  f2 := [(13, 2)]
  fA1 := [(41, 2)]
  fA2 := [(43, 2)]
  lPower := 25
  thetaLen := 23
  strategy := [11, 6, 3, 1, 1, 1, 1, 3, 1, 1, 1, 1, 5, 3, 1, 1, 1, 1, 2, 1, 1, 1]

/-- The curve `y^2 = x^3 + 6 x^2 + x` the scheme starts from. -/
def toyE0 : Crv Toy := ⟨6, 2⟩

/-- A basis of order `2^25` of it. -/
def toyPb : Pt Toy :=
  ⟨.mk' 1592110556926936052548 1959439191872364022184, .mk' 1972532087633529356181 953605751077634132502, 1⟩
/-- Its second point. -/
def toyQb : Pt Toy :=
  ⟨.mk' 1148556269019862814177 554383173539770218330, .mk' 1118312366997211677102 1985806317151374223594, 1⟩
/-- The basis of order `d1` of `E0`, as found with 25 as the exponent of two. -/
def toyPd1 : Pt Toy :=
  ⟨(.mk' 185552085535113331691 178070970015049293359),
   (.mk' 1839990297570881311154 313245116636365336203),
   (.mk' 221679808288426218777 690770974771040663771)⟩
/-- See the previous definition. -/
def toyQd1 : Pt Toy :=
  ⟨(.mk' 597765232895888002448 303734027273116064722),
   (.mk' 619692205410973536848 137013157594343217807),
   (.mk' 635887242368504538325 2002539387312337842967)⟩

/-- The scheme object; the numbers are the inverses of festa.rs:256-289. -/
def toyS : Crypto Toy :=
  ⟨toyC, toyE0, 2 ^ 25, 343, 169, 343 * 169, 22807433, 100663297, 4127195137, 1543503872, 3606158283, toyPb, toyQb,
    toyPd1, toyQd1⟩

/-- The numbers drawn for the masks. -/
def toyr11 : Nat := 16438926
/-- See the previous definition. -/
def toyr22 : Nat := 32434353

/-- The randomness of the first random isogeny. -/
def toyDraws1 : List (List (List (Toy × Bool))) :=
  [[[(.mk' 1597823006148286129188 309823288387129694529, false),
     (.mk' 337235962953247290420 518168607843933710704, true),
     (.mk' 1138774137601318183594 1491345240095912505876, false),
     (.mk' 1625113593761221218735 22080087261143356000, true),
     (.mk' 658774584641219857820 801698172363332245478, false),
     (.mk' 1825387111606762037690 629807345191110303290, true)],
    [(.mk' 1129489430398244570529 215884628834518588998, false),
     (.mk' 1022031461168317401650 395770951457340112310, true),
     (.mk' 1974323470344495512343 214873183318871076082, false),
     (.mk' 1988944034541031256783 1412996487176932135744, true),
     (.mk' 589272371509486376311 114816561182655909158, false),
     (.mk' 1462964366405850769756 1472004814890832746743, true)]]]
/-- The randomness of the second random isogeny. -/
def toyDraws2 : List (List (List (Toy × Bool))) :=
  [[[(.mk' 1138774137601318183594 1491345240095912505876, false),
     (.mk' 1625113593761221218735 22080087261143356000, true),
     (.mk' 658774584641219857820 801698172363332245478, false),
     (.mk' 1825387111606762037690 629807345191110303290, true),
     (.mk' 1572474663620357660608 1029748457817624831314, false),
     (.mk' 1509637650419513636349 1456614127260754448039, true)],
    [(.mk' 1974323470344495512343 214873183318871076082, false),
     (.mk' 1988944034541031256783 1412996487176932135744, true),
     (.mk' 589272371509486376311 114816561182655909158, false),
     (.mk' 1462964366405850769756 1472004814890832746743, true),
     (.mk' 784439486362171701633 1362302660396153041387, false),
     (.mk' 1766367204930096809535 438441738798372968887, true)]]]
/-- The same basis, as found with 634 as the exponent. -/
def toyPd1' : Pt Toy :=
  ⟨(.mk' 546629203617146085439 1119098220430953544780),
   (.mk' 1323282860924485479708 313960056764850953609),
   (.mk' 1636410477194645698032 1151589075129301587949)⟩
/-- See the previous definition. -/
def toyQd1' : Pt Toy :=
  ⟨(.mk' 1875914074186132439983 929034745541110974259),
   (.mk' 734515195379390337910 1224316595382535770780),
   (.mk' 1401285810999104068431 1989483046435580991243)⟩
/-- The curve `EA'` of the key. -/
def toyEA' : Crv Toy :=
  ⟨(.mk' 1651779258128916541143 1328447161458213509772), (.mk' 916236299809483717558 332111790364553377443)⟩
/-- The curve `EA` of the key. -/
def toyEA : Crv Toy :=
  ⟨(.mk' 1270776990565220469194 1078960407561511521606), (.mk' 317694247641305117299 1276323072444887044945)⟩
/-- The basis of order `d2` of `EA'`. -/
def toyP' : Pt Toy :=
  ⟨(.mk' 1136078798588699456142 695711181254106461554),
   (.mk' 767603676332023668562 332657246000423974191),
   (.mk' 861050759970685787970 675652850604637926108)⟩
/-- See the previous definition. -/
def toyQ' : Pt Toy :=
  ⟨(.mk' 1464640247444927759447 1156844719157111080871),
   (.mk' 1109209394749317378286 1172528933163449723315),
   (.mk' 1954396238580435518928 318294658395986019609)⟩
/-- The basis of order `d2` of `EA`, as found with 25 as the exponent of two. -/
def toyPA : Pt Toy :=
  ⟨(.mk' 220672424439991324388 91575235600283513154),
   (.mk' 874442154357385474762 1967678729813432929096),
   (.mk' 1623964098238812963351 1556169970276789865649)⟩
/-- See the previous definition. -/
def toyQA : Pt Toy :=
  ⟨(.mk' 1899317680418304616241 1080688076429878213779),
   (.mk' 1201387796759891653009 117971111992493187627),
   (.mk' 1844856383938953497324 1288205521831192021286)⟩
/-- The same basis, as found with 634 as the exponent. -/
def toyPA' : Pt Toy :=
  ⟨(.mk' 579605372144680717686 1054757165482115811635),
   (.mk' 1035024902941331178747 1689617961489342413784),
   (.mk' 1575675722029444382809 1645848014047647509358)⟩
/-- See the previous definition. -/
def toyQA' : Pt Toy :=
  ⟨(.mk' 624836560949056010200 1849891033894015522894),
   (.mk' 1919150925653256113072 691718471312370588905),
   (.mk' 938450515065281376904 1263685036767311739964)⟩
/-- The images of the basis of `EA'` under the chain to `EA`. -/
def toyPhiP : Pt Toy :=
  ⟨(.mk' 117094674145321092895 1654450379540712137836),
   (.mk' 1711720807527624134134 846912399878666985943),
   (.mk' 665089145608811924427 1047516327008294311986)⟩
/-- See the previous definition. -/
def toyPhiQ : Pt Toy :=
  ⟨(.mk' 828340880312275891386 765950595247314996937),
   (.mk' 492540063016598280882 480710400146579123094),
   (.mk' 676063722868279768594 1284586827758116106542)⟩
/-- The points of the public key. -/
def toyRA : Pt Toy :=
  ⟨(.mk' 36250901271296402840 570066989545869223443),
   (.mk' 1095667347239927526552 789137125138788945089),
   (.mk' 613693962920546713027 685973015960869741340)⟩
/-- See the previous definition. -/
def toySA : Pt Toy :=
  ⟨(.mk' 1462125024156345957953 702822784356085707050),
   (.mk' 1432988617936992813606 179920901562900723211),
   (.mk' 180781977364823602979 1397910809667249673180)⟩
/-- The points of the secret key. -/
def toySkP1 : Pt Toy :=
  ⟨(.mk' 407375277953223359287 803683521388978562741),
   (.mk' 44145411376955804142 668428405137469859537),
   (.mk' 813385688235381050 349798002992310674583)⟩
/-- See the previous definition. -/
def toySkQ1 : Pt Toy :=
  ⟨(.mk' 1019781415848833519996 1677986893921536028349),
   (.mk' 833106698514093191765 1457847188270096701144),
   (.mk' 751441387676939958298 1720124011593649132984)⟩
/-- See the previous definition. -/
def toySkP2 : Pt Toy :=
  ⟨(.mk' 124960563614726660951 1383823259210357358762),
   (.mk' 1219092589230257455095 1921145735961786680007),
   (.mk' 370946597079555534617 306348769103661400435)⟩
/-- See the previous definition. -/
def toySkQ2 : Pt Toy :=
  ⟨(.mk' 413823686983320426959 1822997553502642082321),
   (.mk' 1780671803143819599203 128933056192316293403),
   (.mk' 1662696694996854823262 66494893106537616482)⟩
/-- The public key. -/
def toyPk : PublicKey Toy := ⟨toyEA, toyRA, toySA⟩
/-- The secret key. -/
def toySk : SecretKey Toy := ⟨toyEA', toySkP1, toySkQ1, toySkP2, toySkQ2, 16438927, 32434353⟩
/-- The input of the trapdoor function. -/
def toyM : TrapdoorInput := ⟨287, 149, 4853857, 8688545⟩
/-- The first curve of the value of the trapdoor function. -/
def toyE1 : Crv Toy :=
  ⟨(.mk' 1497966474071067141323 50053158569785645396), (.mk' 877783103795021367603 12513289642446411349)⟩
/-- The second one. -/
def toyE2 : Crv Toy :=
  ⟨(.mk' 384775078904599594889 1770544402326192327530), (.mk' 1606068225557913645538 1449219071136057246426)⟩
/-- The points of the value. -/
def toyR1 : Pt Toy :=
  ⟨(.mk' 1473975466867682434846 1186529698560080649822),
   (.mk' 1822800591294098046896 1516270340906647017599),
   (.mk' 1927922241056287430153 342154526431624121918)⟩
/-- See the previous definition. -/
def toyS1 : Pt Toy :=
  ⟨(.mk' 240714293321955051154 853197058245078046079),
   (.mk' 1199956565503574820335 1613527064453855808799),
   (.mk' 750781590131720664227 237310547594762159166)⟩
/-- See the previous definition. -/
def toyR2 : Pt Toy :=
  ⟨(.mk' 1714065122932543902017 1098688728098313403757),
   (.mk' 1785285657436498464095 764973637602797879827),
   (.mk' 1710389193929051749637 853814332219115916111)⟩
/-- See the previous definition. -/
def toyS2 : Pt Toy :=
  ⟨(.mk' 1081862341355516917363 1406561878934645502508),
   (.mk' 1168856121932990433891 518995972461846125063),
   (.mk' 707254576843922743166 1015584337091840585782)⟩
/-- The value of the trapdoor function. -/
def toyOut : TrapdoorOutput Toy := ⟨toyE1, toyR1, toyS1, toyE2, toyR2, toyS2⟩
/-- The bases of orders `d1` and `d2` on the two curves. -/
def toyX1 : Pt Toy :=
  ⟨(.mk' 267918594928818470681 1188604874212529080613),
   (.mk' 1202523274391070851356 541104395809383048180),
   (.mk' 1102849492551575474191 159365768867600930892)⟩
/-- See the previous definition. -/
def toyY1 : Pt Toy :=
  ⟨(.mk' 869846606326741362331 96512068062103305770),
   (.mk' 428107970630950717297 1569663778034725022008),
   (.mk' 775476935450147065071 1885022892885566390851)⟩
/-- See the previous definition. -/
def toyX2 : Pt Toy :=
  ⟨(.mk' 1088336698743999516695 947533451718796240595),
   (.mk' 1754483724388181354636 1352994201929806117788),
   (.mk' 992370830088758784683 667961900421106033365)⟩
/-- See the previous definition. -/
def toyY2 : Pt Toy :=
  ⟨(.mk' 1952356867404216491848 1133238594205180068784),
   (.mk' 725011064751885861648 214428798615156482399),
   (.mk' 175783441626980455698 1105683555141831061809)⟩
/-- The image of the second basis point under the isogeny to `E1`, up to sign. -/
def toyW1 : Pt Toy :=
  ⟨(.mk' 599712660473116590427 1757300687292291977138),
   (.mk' 677270961840679595400 1347471963492990309568),
   (.mk' 1315134453433685813028 680279188285029422946)⟩
/-- The values of the chain back from `E1` at the points of the value and their sum. -/
def toyZ1 : Pt Toy :=
  ⟨(.mk' 1288872855423322203284 629419070353718428061),
   (.mk' 1307748284850447403119 1518918972133663024847),
   (.mk' 823066599385122968915 1361737543834078202166)⟩
/-- See the previous definition. -/
def toyZ2 : Pt Toy :=
  ⟨(.mk' 500165206440288608486 13377316439357730046),
   (.mk' 1575897096265766447520 1507695413141176760183),
   (.mk' 1033395069510397248749 581822132183416320621)⟩
/-- See the previous definition. -/
def toyZ3 : Pt Toy :=
  ⟨(.mk' 1117216476092545902425 1323766490445323225379),
   (.mk' 1223882378587322354839 1839749617595361784994),
   (.mk' 773070017449596054508 1178844616127894616487)⟩
/-- The values of that chain at the basis points, each with `R1` added. -/
def toyU1 : Pt Toy :=
  ⟨(.mk' 1581864806247957296755 1887053546365011311046),
   (.mk' 1226898776972822370111 690017222515745954498),
   (.mk' 494529427727644127649 1962655750169811314081)⟩
/-- See the previous definition. -/
def toyU2 : Pt Toy :=
  ⟨(.mk' 1636666488458600264868 1265791099442060675365),
   (.mk' 1093986134217690041203 1721144962446446956086),
   (.mk' 1775803700717897362294 1233793876569091389951)⟩
/-- The image of the second basis point under the isogeny to `E2`, up to sign. -/
def toyW2 : Pt Toy :=
  ⟨(.mk' 143627455755771257100 603409308987064073585),
   (.mk' 1100647282053175901560 101825900299419046906),
   (.mk' 302426393607818850337 1556162572322766800068)⟩
/-- The values of the chain back from `E2` at the basis points and their sum. -/
def toyJ1 : Pt Toy :=
  ⟨(.mk' 1976794810407457531138 1811772570429155926626),
   (.mk' 1971682565924085312317 1037187053979305575460),
   (.mk' 1047346142541094041579 1784341296305554182528)⟩
/-- See the previous definition. -/
def toyJ2 : Pt Toy :=
  ⟨(.mk' 1847533500679487254776 618111984928054697681),
   (.mk' 628564511250495162679 1183103700061979688449),
   (.mk' 149970221073207821661 447161607351095348448)⟩
/-- See the previous definition. -/
def toyJ3 : Pt Toy :=
  ⟨(.mk' 718206080745642729528 723953611470495395030),
   (.mk' 938262769526424469619 1958209029993696335783),
   (.mk' 1366412052138445302762 1491135364694059225549)⟩
/-- The image under the isogeny from `EA'` to `EA` of a point of order `dA2`, up to sign. -/
def toyW3 : Pt Toy :=
  ⟨(.mk' 321871239726745541005 436974605355485571726),
   (.mk' 1943613417970346747981 148750961573826175835),
   (.mk' 695884488567575763819 471606029631750239030)⟩
/-- The values of the chain from `EA'` to `EA` at the points `P2`, `Q2` of the secret key and their sum. -/
def toyF1 : Pt Toy :=
  ⟨(.mk' 1215310368715192020070 980776466284184687245),
   (.mk' 305250665522582298400 999104722552224603012),
   (.mk' 776227445178522842295 528980475014690092539)⟩
/-- See the previous definition. -/
def toyF2 : Pt Toy :=
  ⟨(.mk' 1526242358123007465765 1942109510447684540576),
   (.mk' 431012407001565498204 487446618336212385729),
   (.mk' 501314891491422755071 435058829961025091436)⟩
/-- See the previous definition. -/
def toyF3 : Pt Toy :=
  ⟨(.mk' 1128253915531588679498 1374611748819158956807),
   (.mk' 1820798709608226735855 484569846586576408613),
   (.mk' 1210991763691456308396 235769439881462706420)⟩
/-- The values of the chain back from `EA` at those. -/
def toyG1 : Pt Toy :=
  ⟨(.mk' 1155814343435649662258 1357871576513530266875),
   (.mk' 1839250286537169334159 1671318497202328814505),
   (.mk' 450683859513051186129 1908034541803226586606)⟩
/-- See the previous definition. -/
def toyG2 : Pt Toy :=
  ⟨(.mk' 911152722590522462910 1367703692172132636310),
   (.mk' 171411936513120751209 956920658099427388011),
   (.mk' 1243217075948839724466 1748331121885458603999)⟩
/-- See the previous definition. -/
def toyG3 : Pt Toy :=
  ⟨(.mk' 308944432904830191886 409762009571908937792),
   (.mk' 909536792082844354145 1859704965388082221975),
   (.mk' 258961983209815614208 393998234167714358056)⟩
/-- The values of that chain at the images of the basis of `E2`. -/
def toyH1 : Pt Toy :=
  ⟨(.mk' 1696676625196546588046 1219240923950438025939),
   (.mk' 401875763111520666003 564770901712300367450),
   (.mk' 209634031483727350482 1400689543365521218139)⟩
/-- See the previous definition. -/
def toyH2 : Pt Toy :=
  ⟨(.mk' 1148383515341803157778 218742583487484214909),
   (.mk' 1894393004391356599295 388892426339223295078),
   (.mk' 335090081333900285041 1838698527643915346477)⟩
/-- See the previous definition. -/
def toyH3 : Pt Toy :=
  ⟨(.mk' 471125174722511702109 1113566777002232371208),
   (.mk' 167835650408994525646 1436806926076925070860),
   (.mk' 985986822670451219225 1209662708750233630167)⟩
/-- The points of the value without the masks of the key, and their multiples that are glued. -/
def toyr : Pt Toy :=
  ⟨(.mk' 487811150417739498922 679725337585823670918),
   (.mk' 757301540190191714350 84428649280265166403),
   (.mk' 1145462230149149374646 1697245108094019972690)⟩
/-- See the previous definition. -/
def toys : Pt Toy :=
  ⟨(.mk' 290846104283041767275 568875519699459000558),
   (.mk' 985310208873706825158 1426602197429497872161),
   (.mk' 448622475754275997097 1891953149320329769994)⟩
/-- See the previous definition. -/
def toygP : Pt Toy :=
  ⟨(.mk' 945990871362189718557 939896808851547137033),
   (.mk' 155435110915223122849 307825316437703632807),
   (.mk' 418005161005673665800 1801639734129662663802)⟩
/-- See the previous definition. -/
def toygQ : Pt Toy :=
  ⟨(.mk' 1766867222851628447769 875911455538488044538),
   (.mk' 2000605954901660939067 1364658439729295788069),
   (.mk' 1518682376593295535765 867918132185865573549)⟩
/-- The codomain of the chain of (2,2)-isogenies, and the images of the two pairs of points. -/
def toyE3 : Crv Toy :=
  ⟨(.mk' 316216519840407421433 921601188745102679881), (.mk' 1588928585791865602174 733691782463530252242)⟩
/-- See the previous definition. -/
def toyE4 : Crv Toy :=
  ⟨(.mk' 1901393601243888483468 1550605339825136190976), (.mk' 1481931370865481285411 387651334956284047744)⟩
/-- See the previous definition. -/
def toyI11 : Pt Toy :=
  ⟨(.mk' 820422471224727545913 56946681056828562164),
   (.mk' 174286323266050697778 249833143272535918532),
   (.mk' 237633087506442293927 1413825874307601524518)⟩
/-- See the previous definition. -/
def toyI12 : Pt Toy :=
  ⟨(.mk' 756712356945660414471 1341793462933566644046),
   (.mk' 598547725461952950861 779634711784797609462),
   (.mk' 18060985011190166649 1432170910905983312102)⟩
/-- See the previous definition. -/
def toyI21 : Pt Toy :=
  ⟨(.mk' 1809526479300437989760 634086321221965318601),
   (.mk' 643464721796241605243 1064472072323789368309),
   (.mk' 539090677369527974802 1146866490491202133875)⟩
/-- See the previous definition. -/
def toyI22 : Pt Toy :=
  ⟨(.mk' 452388734623883571557 346407871854877187630),
   (.mk' 594202118109694692941 234656121013718712395),
   (.mk' 410177278326502094732 850835518299865100015)⟩
/-- The images moved to `EA'`. -/
def toyl1 : Pt Toy :=
  ⟨(.mk' 230923121759892262093 6276469231730628921), (.mk' 470697404402752195233 438706694776466732487), 1⟩
/-- See the previous definition. -/
def toyl2 : Pt Toy :=
  ⟨(.mk' 367167831199698434699 298329809232268977443), (.mk' 334069259780746348410 477821384472924516235), 1⟩

end Festa
