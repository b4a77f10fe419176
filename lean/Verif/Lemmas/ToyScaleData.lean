import Verif.Lemmas.ToyChain
/-! The chain of the small version of the scheme for the value with its points multiplied by 3 and by the inverse of 3, as in
`ToyChainData`. -/
namespace Festa

def toymR1 : Pt Toy :=
  ⟨(.mk' 840004384260220481062 1632272058705595606008), (.mk' 637441620932436084866 1288034415380483028197),
  (.mk' 1643516969875018810096 723370256477215105352)⟩
def toymS1 : Pt Toy :=
  ⟨(.mk' 1457407679479030132247 1912537422872672191114), (.mk' 548531226179360974963 1613510405067860629620),
  (.mk' 731670807207602515009 1568321160035233967497)⟩
def toymR2 : Pt Toy :=
  ⟨(.mk' 1836671672753565016281 138959230904419741043), (.mk' 401330422817364939997 170411427673264564421),
  (.mk' 1665016658445150555116 1936997732699955226411)⟩
def toymS2 : Pt Toy :=
  ⟨(.mk' 1663274396827983771066 1668559055264584659311), (.mk' 1863928279683730951747 1676672538364563236267),
  (.mk' 336653313089278423110 875539234663127372894)⟩
def toymgP : Pt Toy :=
  ⟨(.mk' 258906402079046280420 1586265733722046003951), (.mk' 1577892137981233024013 1301958540408896213723),
  (.mk' 105396163861164940115 1524795376623655522254)⟩
def toymgQ : Pt Toy :=
  ⟨(.mk' 1326810754223126158536 1768759158331134217610), (.mk' 766539696721303654865 1484084929793889936411),
  (.mk' 1566050641180590635703 1724200987144328173341)⟩
def toymcO21 : ThPt Toy :=
  ⟨(.mk' 506351864730122092314 1567685578117868538378), (.mk' 205917373616967100696 272097282250849802965),
  (.mk' 1807248567492051228393 1741068658858168526122), (.mk' 1506814076378896236775 445480362991149790709)⟩
def toymcK21 : ThPt Toy :=
  ⟨(.mk' 1037672293662292476605 987146088868299592729), (.mk' 55047973213738074584 1194397379165219019625),
  (.mk' 1242484767541474074055 634029616201253837819), (.mk' 374696093741392416117 1448527041533458642541)⟩
def toymcL21 : ThPt Toy :=
  ⟨(.mk' 944319994173019524782 342287202787504409912), (.mk' 1356612403369783409129 1098355878126480620372),
  (.mk' 387135072042887921455 1243585129249891288174), (.mk' 1448660935500654953868 1487368547676799835366)⟩
def toymcT21 : ThPt Toy :=
  ⟨(.mk' 1987371834205387624896 763539443658085448080), (.mk' 590614171688450856424 420436251906231232979),
  (.mk' 1651571046675306771186 506305464307008248490), (.mk' 200693678062916484839 294989473909827450585)⟩
def toymcU21 : ThPt Toy :=
  ⟨(.mk' 2008187274702782485383 375868113348428166574), (.mk' 123723162067963054238 1711290564758551927462),
  (.mk' 1778185384243584326929 1213064639942861162960), (.mk' 1773577554237397816791 497878258136858350303)⟩
def toymcO20 : ThPt Toy :=
  ⟨(.mk' 1748772225146741279182 605347072998792839120), (.mk' 1288748806918742421915 1214316990996014852322),
  (.mk' 827672107553678095064 668144156877572421713), (.mk' 161138742598874862017 1538523661345656545019)⟩
def toymcK20 : ThPt Toy :=
  ⟨(.mk' 1998757754172074667037 46797463551384271270), (.mk' 1129275667312990661756 1889826709248114659316),
  (.mk' 983369266692938050104 1295218167898663585065), (.mk' 1050034533622980683252 1382457961518170967181)⟩
def toymcL20 : ThPt Toy :=
  ⟨(.mk' 1723738970163346396762 1002047307274490133692), (.mk' 1101976404334670515414 838921793052653892979),
  (.mk' 124850669629785968781 329274212795743292549), (.mk' 1510747216255328099143 1358368353200896260976)⟩
def toymcT20 : ThPt Toy :=
  ⟨(.mk' 1523429523862177914846 807042586721314000204), (.mk' 1188697114886778667624 722514251116190455412),
  (.mk' 460949044752121824568 1145897143115965465816), (.mk' 1100369920630685122271 1352091277983947904316)⟩
def toymcU20 : ThPt Toy :=
  ⟨(.mk' 348058678119825529566 1741794237382969851061), (.mk' 1638790793792283225805 1004529222626996647548),
  (.mk' 674527491044743415898 1412279844857096076644), (.mk' 1000150910450785698333 476001690719536225176)⟩
def toymcO19 : ThPt Toy :=
  ⟨(.mk' 1671720644169545664692 1723124799676673705496), (.mk' 1491410987810158076685 439986921064184328960),
  (.mk' 1688971631790532906988 1842731522497282594884), (.mk' 1187394559556818338900 20488638979896028834)⟩
def toymcK19 : ThPt Toy :=
  ⟨(.mk' 359398273941387385224 1107701512725388411471), (.mk' 727785515311801457913 1302472172109001218826),
  (.mk' 1106973493476986750656 1145640496097895700296), (.mk' 1026679949562078900199 935584386098249384944)⟩
def toymcL19 : ThPt Toy :=
  ⟨(.mk' 1334219742308411451420 1872277271751330600794), (.mk' 569536990474644000476 1142563861611015435542),
  (.mk' 1336744864662065942434 1612347601899592649781), (.mk' 1420527468069357068265 1696194742324720293236)⟩
def toymcT19 : ThPt Toy :=
  ⟨(.mk' 1071941323794841872878 1514359127636725120933), (.mk' 428904102731105155654 1179498840838585556441),
  (.mk' 1903278804084120593591 1594417849662480252949), (.mk' 598097738773868306742 1952282948889831512315)⟩
def toymcU19 : ThPt Toy :=
  ⟨(.mk' 909997790306533346074 113212590957258068227), (.mk' 596675376813699266322 1486237057777346876020),
  (.mk' 390721938040219226797 537633134692058808814), (.mk' 1492236698142366094052 100776697128791204532)⟩
def toymcO18 : ThPt Toy :=
  ⟨(.mk' 1880894005510309288054 1972952649004451646870), (.mk' 1309600978615219064834 711841425830257106453),
  (.mk' 1387043172063532108407 361480956373696885912), (.mk' 1461959667137994525970 980056851009631018939)⟩
def toymcK18 : ThPt Toy :=
  ⟨(.mk' 1521962266403518689016 688920771214159445615), (.mk' 1067228322813802632183 62528062570555697180),
  (.mk' 149314317358102535310 559578660059245367115), (.mk' 1120245131076085122985 1003941002866240089640)⟩
def toymcL18 : ThPt Toy :=
  ⟨(.mk' 1995285833766566929530 1802766259542408511766), (.mk' 1119409881326676646188 1061631667614423896606),
  (.mk' 1391634758278803138245 1526291444530655238924), (.mk' 1217505621519518868233 848630859977566661555)⟩
def toymcT18 : ThPt Toy :=
  ⟨(.mk' 1543056050724684681407 1499545201121390546774), (.mk' 296731267902185963902 577068298799305774858),
  (.mk' 987693629342790272583 675073494026040861642), (.mk' 1031594666804548045243 1892813398195699174391)⟩
def toymcU18 : ThPt Toy :=
  ⟨(.mk' 787773929809857011443 2003976400800866504249), (.mk' 571776123911890397076 1011788447550430770754),
  (.mk' 1230103705763000322813 949446208040416341914), (.mk' 1457926278959616653562 862496434424044795594)⟩
def toymcO17 : ThPt Toy :=
  ⟨(.mk' 890912763072656255188 1744839856671103254397), (.mk' 1404158629509978197427 1632791828313630830704),
  (.mk' 325198742528441574178 1639421738593008963502), (.mk' 1406061747106960631385 1022444399749311938658)⟩
def toymcK17 : ThPt Toy :=
  ⟨(.mk' 113028740062624895352 1917307956376592755491), (.mk' 962509532739002593351 1549961219882044853319),
  (.mk' 1357538932625905138874 1235318629296193917857), (.mk' 1290990736050692749735 605433178828839188636)⟩
def toymcL17 : ThPt Toy :=
  ⟨(.mk' 1320832344703224241532 1474392216711545847087), (.mk' 1045905605920742988977 1620455343999049544108),
  (.mk' 160719490597048378947 1449503172562542264887), (.mk' 909804542698320580626 582058383287801052319)⟩
def toymcT17 : ThPt Toy :=
  ⟨(.mk' 1600019969883516095700 1850962745556666515081), (.mk' 229828278897886944495 1562285831769921170169),
  (.mk' 1491084240277120569185 413633319305868210768), (.mk' 718640424787833026840 680885977653406371466)⟩
def toymcU17 : ThPt Toy :=
  ⟨(.mk' 274902733203126066101 511009274115877372510), (.mk' 755816076489525956937 585922490481561373999),
  (.mk' 1263687084320613494668 1510771917696748721469), (.mk' 1954107133478807752131 545783739463933454693)⟩
def toymcO16 : ThPt Toy :=
  ⟨(.mk' 557272443824914321466 1397187732666695082150), (.mk' 1765473518382551046774 154522989127558432503),
  (.mk' 1295816219308525514027 1968703262065338594260), (.mk' 407769700702045775911 505917898358444549261)⟩
def toymcK16 : ThPt Toy :=
  ⟨(.mk' 243925539883539723495 356378546117093309274), (.mk' 1106803731367907045139 773691919642509204518),
  (.mk' 4037006976307948963 175250178236928028344), (.mk' 1013702842009339621942 1528903792442745423150)⟩
def toymcL16 : ThPt Toy :=
  ⟨(.mk' 349372988980394304081 112326241647264231397), (.mk' 886364369554570973758 1842324226722933559273),
  (.mk' 138590505927527520404 1428870764411207399360), (.mk' 2012426999739521235862 1765382393572514447748)⟩
def toymcT16 : ThPt Toy :=
  ⟨(.mk' 360588488872158277578 1665773234072885456804), (.mk' 1657102879796754708431 124013945013043324864),
  (.mk' 212184986442844352998 1882542742237670837461), (.mk' 456112500704777716906 47725439247210454251)⟩
def toymcU16 : ThPt Toy :=
  ⟨(.mk' 492107809399212847520 465060900219401097890), (.mk' 415087162641944279881 941885737591738583388),
  (.mk' 1225893649219621257540 672240914775496967567), (.mk' 1884568697694787645144 1986920594635890171987)⟩
def toymcO15 : ThPt Toy :=
  ⟨(.mk' 417425959410441989221 703459735111685850812), (.mk' 1305800849298016891993 1431701782211915970990),
  (.mk' 1817531494316526480878 773977918795653800711), (.mk' 485573579193051296086 1117192446098781035661)⟩
def toymcK15 : ThPt Toy :=
  ⟨(.mk' 212205402909848490743 256836746032358863553), (.mk' 407303850688649078921 1367633785802688519956),
  (.mk' 1906219964064595869813 1816086499416192432114), (.mk' 1123563059222474680424 1090613579028416214091)⟩
def toymcL15 : ThPt Toy :=
  ⟨(.mk' 1111611959859060177587 1269613585338226217733), (.mk' 175147589091370698180 1957173016301542661017),
  (.mk' 994113410393025011576 15765712094721554419), (.mk' 1388433811735039554616 556266986391489725554)⟩
def toymcT15 : ThPt Toy :=
  ⟨(.mk' 657294943458146263532 160686232650033634968), (.mk' 1199416226092319128773 164317784397327786429),
  (.mk' 1766230309767298431967 1094577645218012269525), (.mk' 1034198996874421164799 448106711461343897198)⟩
def toymcU15 : ThPt Toy :=
  ⟨(.mk' 1850701629872451842342 1892196219766716556732), (.mk' 1710637435067714726893 868329544893697846666),
  (.mk' 630376625372129142987 1227317281670862105089), (.mk' 1046299339838183027094 1067189086503115529547)⟩
def toymcO14 : ThPt Toy :=
  ⟨(.mk' 1820156391066548170077 342557977100951181481), (.mk' 1538130506124156281893 1690866673944635561191),
  (.mk' 1749512614430168710640 1264966188592219162428), (.mk' 931698311706181824655 727941042580230753074)⟩
def toymcK14 : ThPt Toy :=
  ⟨(.mk' 659803473071173297948 1807257965005412040110), (.mk' 711694107540401047005 1697068889971341557769),
  (.mk' 515276935102067647576 53640000987875415834), (.mk' 1944467728487160429360 101879041117502690808)⟩
def toymcL14 : ThPt Toy :=
  ⟨(.mk' 103095401561963415562 962595723710805509696), (.mk' 1446845205807024460904 1578883940148546622811),
  (.mk' 535904660240637171277 600701390147827585188), (.mk' 103890757801315876341 677073616183548788166)⟩
def toymcT14 : ThPt Toy :=
  ⟨(.mk' 1304498328714813425291 743279915341240560914), (.mk' 290984022884006705597 1220932523947646626340),
  (.mk' 1477581251358196473767 1577408506861093766632), (.mk' 1739409145158392682901 471265535405647689520)⟩
def toymcU14 : ThPt Toy :=
  ⟨(.mk' 822196887222379532065 561563502631315885571), (.mk' 1776902965505861098637 264191348588986243597),
  (.mk' 644380696148995279580 97465867744834852682), (.mk' 382266803426058892021 1487252147133351659705)⟩
def toymcO13 : ThPt Toy :=
  ⟨(.mk' 2010088872591613715190 498569429579820703059), (.mk' 558807003518554020589 1080034559166086649559),
  (.mk' 2003991444678143120943 1171032458476608809864), (.mk' 1466610502538744130543 1276695434995520495692)⟩
def toymcK13 : ThPt Toy :=
  ⟨(.mk' 1878846162066010589293 970736633655009956564), (.mk' 1381642207139807990326 143117579711826296336),
  (.mk' 1699396752456724651611 1051493552617388815387), (.mk' 1768205763137543490275 1607248237650306565513)⟩
def toymcL13 : ThPt Toy :=
  ⟨(.mk' 1327201622380090099537 635552443297020276305), (.mk' 295378090412234777074 968981105072403480930),
  (.mk' 1226286864203063940589 1257336313232625222596), (.mk' 1128774177064335410847 1187297479508188773809)⟩
def toymcT13 : ThPt Toy :=
  ⟨(.mk' 1376439972770222485171 1485936890594172518294), (.mk' 644675361827081547211 1992835677761176258928),
  (.mk' 1230680512711205212038 383225527797047808127), (.mk' 530596399624238416282 645352173566883729441)⟩
def toymcU13 : ThPt Toy :=
  ⟨(.mk' 659322673327890664484 400905204997506135138), (.mk' 1585443722474872267088 467472652094956887133),
  (.mk' 883609632768018426725 282059215792660825261), (.mk' 1534410040209389749994 1310803467140705960333)⟩
def toymcO12 : ThPt Toy :=
  ⟨(.mk' 989790298892565824156 1830615178409871303723), (.mk' 899585996753280709622 593255801278600848201),
  (.mk' 1149346866176074623489 1092739818122460845640), (.mk' 987608720396115500911 509721084407103660610)⟩
def toymcK12 : ThPt Toy :=
  ⟨(.mk' 83336349959372751587 1030548891889555490971), (.mk' 1301899087348346164885 1827764539855213726202),
  (.mk' 414209510875603511721 884923310769254733422), (.mk' 203764597507233084686 643717879644035954280)⟩
def toymcL12 : ThPt Toy :=
  ⟨(.mk' 451107674242628158398 1115353636818643614301), (.mk' 1667107657866645832072 1848711852609319669834),
  (.mk' 713820208274843085918 391802510511527683680), (.mk' 12110070681361429057 105078078138864889222)⟩
def toymcT12 : ThPt Toy :=
  ⟨(.mk' 31023519356932852993 122733149473751127986), (.mk' 637264998050799246189 1147738699469072584569),
  (.mk' 1308087771401372262179 1819485312351050779470), (.mk' 1294550838851429087427 1781239574326589824719)⟩
def toymcU12 : ThPt Toy :=
  ⟨(.mk' 1947555118366514015809 967877142664858906492), (.mk' 807797861894062030764 1606993797613597256081),
  (.mk' 134644573151769174038 1982576573052301391660), (.mk' 993423886213488450017 1007722967424501745801)⟩
def toymcO11 : ThPt Toy :=
  ⟨(.mk' 177866594083600011559 1837777834858946189646), (.mk' 928971238915422376879 921916376685501855393),
  (.mk' 1401829514412958991862 801466092953401341609), (.mk' 1517664534806055277878 465171577720187271526)⟩
def toymcK11 : ThPt Toy :=
  ⟨(.mk' 581053973461167570424 1195960367889765141629), (.mk' 1722991327253922493026 1309404955314365107752),
  (.mk' 1468505376814485236039 948761630189156143628), (.mk' 980782779702384280482 293749977402701900872)⟩
def toymcL11 : ThPt Toy :=
  ⟨(.mk' 1249851680386698982770 1421655316762384327533), (.mk' 1455138086526402695905 259164826476236355459),
  (.mk' 1783202814381820804888 32929087984131202987), (.mk' 329034521889261249030 813777411305925438714)⟩
def toymcT11 : ThPt Toy :=
  ⟨(.mk' 156441349483378883998 285926520240667249762), (.mk' 56757891314297708198 1966209377039103230501),
  (.mk' 216339278932833231907 1506500029903090956010), (.mk' 1006260825964563842472 1711405513611762515175)⟩
def toymcU11 : ThPt Toy :=
  ⟨(.mk' 245006872767543965919 344367656116656762705), (.mk' 984497052285574277273 1461821694905930793973),
  (.mk' 1389723971411242513861 1866911805318975474128), (.mk' 1918938186826695286256 1705356965135122139281)⟩
def toymcO10 : ThPt Toy :=
  ⟨(.mk' 406989986737257241588 1333983865208731729903), (.mk' 1773747214133596767632 1683581669457101364712),
  (.mk' 589976728022270207410 771286436312484812829), (.mk' 1255617953324912441548 237479911239718750730)⟩
def toymcK10 : ThPt Toy :=
  ⟨(.mk' 1668776629289038862133 1246303567092052918797), (.mk' 1489765304570754627148 907918195652490017762),
  (.mk' 886904037119512562794 69798692456986154463), (.mk' 1831652979926967856792 629289627359634606074)⟩
def toymcL10 : ThPt Toy :=
  ⟨(.mk' 1674434406462748587948 759406425247880561565), (.mk' 2002621279317601328501 329679187391307266057),
  (.mk' 310954133158864612030 1460023626043224527188), (.mk' 780619111889079255256 1277389728487443186857)⟩
def toymcT10 : ThPt Toy :=
  ⟨(.mk' 489705003313274848367 1901475667948555717835), (.mk' 113116593711572700708 344248734796940849170),
  (.mk' 1170555034048711669941 641280942301464506843), (.mk' 1779195292555086626879 175450731090095630169)⟩
def toymcU10 : ThPt Toy :=
  ⟨(.mk' 942444666923421366530 1296455648556709906437), (.mk' 1252886045228969604496 1814877930987504855815),
  (.mk' 52548961156803619610 202651089643320629885), (.mk' 834143309084204902117 1672729690093129315928)⟩
def toymcO9 : ThPt Toy :=
  ⟨(.mk' 1232601822146494127272 490676495344374454718), (.mk' 1390995975246546797802 156121035384983054025),
  (.mk' 1415260377432572844269 205679127308723072100), (.mk' 2000639648501441217922 1160689283070937748244)⟩
def toymcK9 : ThPt Toy :=
  ⟨(.mk' 1276602001354811409532 1091166954034607649999), (.mk' 316045534746971159909 1777198869989001131877),
  (.mk' 1620842557077758325783 1372436665243346846220), (.mk' 1746290949377266352582 1988137102369313854227)⟩
def toymcL9 : ThPt Toy :=
  ⟨(.mk' 1885260900699708499906 1584582389296877060205), (.mk' 1402091411749017292397 1403618237506420571563),
  (.mk' 876990069601258653150 1946834603716171880227), (.mk' 786051636848212366393 1396521536307128042854)⟩
def toymcT9 : ThPt Toy :=
  ⟨(.mk' 30662117851046361475 1892743134265331368072), (.mk' 1903817499114413522127 1330245781043626861256),
  (.mk' 197821274601835343585 227930725283015676755), (.mk' 1110380567834299693631 168877149183854256445)⟩
def toymcU9 : ThPt Toy :=
  ⟨(.mk' 1340061354856998369611 208592591072219360614), (.mk' 429888121585685247156 759078848688814170821),
  (.mk' 1807146006360928561850 1454190728568276892687), (.mk' 1108507588409969502490 2012254049029836165410)⟩
def toymcO8 : ThPt Toy :=
  ⟨(.mk' 1679597835140851629610 1535980925253360792972), (.mk' 773204510363434962701 1696213808340469548987),
  (.mk' 1860336454338556118616 867477930904995849130), (.mk' 1726359023484212276338 1939825158828228796172)⟩
def toymcK8 : ThPt Toy :=
  ⟨(.mk' 94997433870887976234 1730428214141901949726), (.mk' 647069129526580129370 313233816899887389296),
  (.mk' 661713901054861988960 349454385169450941727), (.mk' 1652821989553384235446 1433609738188727513933)⟩
def toymcL8 : ThPt Toy :=
  ⟨(.mk' 230559306155131570058 1929317782808091252727), (.mk' 316562253891061037547 68444301826957490424),
  (.mk' 241408078419678884596 878497023453675797625), (.mk' 387791338540283739744 205997259739439194673)⟩
def toymcT8 : ThPt Toy :=
  ⟨(.mk' 1769293928867524112353 1335168184568268865624), (.mk' 729953214403797686541 769559288267804864308),
  (.mk' 1336014100070019855330 94792657541201994501), (.mk' 1996375617041238587616 731648954298990595393)⟩
def toymcU8 : ThPt Toy :=
  ⟨(.mk' 554506432596999015095 1990368231351974775622), (.mk' 535395877258458363887 1765626212411380694962),
  (.mk' 1698171804654091665574 416100772877263014151), (.mk' 1696638685935560304975 760038506481445056456)⟩
def toymcO7 : ThPt Toy :=
  ⟨(.mk' 1539403132262749561126 1178863407123309069949), (.mk' 1927287597681140491399 129226200091809673457),
  (.mk' 679695899990407044368 968755103065562650501), (.mk' 1893111193392757890372 1749487171937355264267)⟩
def toymcK7 : ThPt Toy :=
  ⟨(.mk' 124282520196566812837 402006194760822117345), (.mk' 614132383035252970043 161381961070771884950),
  (.mk' 1682817677192690938442 1211631743152393693576), (.mk' 36877657519187322602 919002866547924467739)⟩
def toymcL7 : ThPt Toy :=
  ⟨(.mk' 405148866394049513069 1262895463929616706180), (.mk' 452673028730222114467 1135500706989495983996),
  (.mk' 749830242742969518292 1180785559150894789532), (.mk' 796621335952238691221 252474585870745650168)⟩
def toymcT7 : ThPt Toy :=
  ⟨(.mk' 386001084630617597624 246206103663373549029), (.mk' 1535282818372303780188 1716621709866062457719),
  (.mk' 320042766340751816345 2008456321667159222156), (.mk' 1426256656812950237999 1285522301324205363931)⟩
def toymcU7 : ThPt Toy :=
  ⟨(.mk' 1083624909524454960926 98085658688873896417), (.mk' 369104707109392748327 713669434669661739145),
  (.mk' 1434820297855325593883 1339716086505054295265), (.mk' 1150908681392282126735 619746908447967014704)⟩
def toymcO6 : ThPt Toy :=
  ⟨(.mk' 644921947369294871838 960683050613179367873), (.mk' 286899186377551414909 1386032462423568286803),
  (.mk' 427221254811494331463 815790744458721911538), (.mk' 654123552550677710881 863825624722567091960)⟩
def toymcK6 : ThPt Toy :=
  ⟨(.mk' 260242618177125987541 155436098589644437852), (.mk' 1105146575862436539451 1522589125560897554474),
  (.mk' 1509177179520006141006 1346679912105640930030), (.mk' 1665155765443036466368 1683919488787737454714)⟩
def toymcL6 : ThPt Toy :=
  ⟨(.mk' 1210369850089458351349 555134598615160680479), (.mk' 1005536848930986825698 1466411331267493252936),
  (.mk' 1329672415717591300368 1530985149948378627196), (.mk' 1950966180797715968156 1203118462986040189949)⟩
def toymcT6 : ThPt Toy :=
  ⟨(.mk' 1698068016600748410985 1035795875172419941414), (.mk' 1271109952668013889731 29390837654392099643),
  (.mk' 501720314295460276544 1456772447420325492602), (.mk' 331552665369888133032 1934491031842208375419)⟩
def toymcU6 : ThPt Toy :=
  ⟨(.mk' 1614100673943676588088 1061563185062878356785), (.mk' 902999799154289405681 1635945554049427591319),
  (.mk' 82781208470046433733 1721020238603314238138), (.mk' 241124848758841623282 964851855053001183029)⟩
def toymcO5 : ThPt Toy :=
  ⟨(.mk' 220432388839483661561 1553102134006774546288), (.mk' 196358916511494872336 582087747795672621149),
  (.mk' 92028443137867015284 1190873597553056505851), (.mk' 1504346192620172779910 700268402862532984886)⟩
def toymcK5 : ThPt Toy :=
  ⟨(.mk' 1608960558766113014025 1402037609135532465711), (.mk' 444841255263170574553 1930147377134794626984),
  (.mk' 771123359705978270388 439155662282336201559), (.mk' 325362252322297228064 1602646873066945126724)⟩
def toymcL5 : ThPt Toy :=
  ⟨(.mk' 38182643784176204342 143541706157581308122), (.mk' 907849274866676005048 1739118777332900437399),
  (.mk' 111914018975896012277 392522292871753714127), (.mk' 1895666688289485879025 1989990600333981379552)⟩
def toymcT5 : ThPt Toy :=
  ⟨(.mk' 1483721251707599109638 1464475734105314072515), (.mk' 174587795444120730481 1876096547555334699529),
  (.mk' 1863859117444371913597 1859113807811245545694), (.mk' 1635281332009734000324 681827610247843754501)⟩
def toymcU5 : ThPt Toy :=
  ⟨(.mk' 187998482838507318975 926310013534873272703), (.mk' 1854020847162830775236 1839356334429077027336),
  (.mk' 1710974400973382988038 583048618955711575455), (.mk' 381157400223484459672 1504430864832562959199)⟩
def toymcO4 : ThPt Toy :=
  ⟨(.mk' 1924206935340928983841 383256492808557904401), (.mk' 513451436043641294624 939577249966536139646),
  (.mk' 59781617228486820533 1909310803737816920168), (.mk' 1528891893604979559180 794187335705125693959)⟩
def toymcK4 : ThPt Toy :=
  ⟨(.mk' 1728364690184482049232 365823315232862819483), (.mk' 168116602086595773165 1207018442988170522616),
  (.mk' 1931707141807570707740 956331061936491224883), (.mk' 473235959063592886613 1043642331845399179832)⟩
def toymcL4 : ThPt Toy :=
  ⟨(.mk' 1751250789578942565391 810704738037097851623), (.mk' 699578363982945518778 199223271650125709107),
  (.mk' 482133200698665934145 1557958994482329059264), (.mk' 1430180713749281323360 787786937132475666683)⟩
def toymcT4 : ThPt Toy :=
  ⟨(.mk' 1960602075199694975911 331143210236995588471), (.mk' 609164399719295004093 1162392100256839744834),
  (.mk' 1223760513804169181544 1903027361257809286969), (.mk' 1763939468112855277273 615107061900897040581)⟩
def toymcU4 : ThPt Toy :=
  ⟨(.mk' 889692196903344575043 1390825669849338097053), (.mk' 1758831959402614380343 256564796247606938216),
  (.mk' 1669003077209863089160 312324810883334411766), (.mk' 299792125711927946721 56135409510841751061)⟩
def toymcO3 : ThPt Toy :=
  ⟨(.mk' 667555267842959203473 154640758405431597444), (.mk' 1598474099802334474998 774617725437905670202),
  (.mk' 815234162375936774715 528226643073584901292), (.mk' 945068352196806204992 555680814192096160149)⟩
def toymcK3 : ThPt Toy :=
  ⟨(.mk' 199910987943505712191 1827095158420770006677), (.mk' 1178893499285876910240 1817493178227307114301),
  (.mk' 76549091134949298860 393530900586049738717), (.mk' 1825422615113204858684 5801711465308697728)⟩
def toymcL3 : ThPt Toy :=
  ⟨(.mk' 1565267077552029955920 1958183307598289526409), (.mk' 1139467030071585272415 191038716366208370247),
  (.mk' 183462874401837175798 1092208849372687371702), (.mk' 1351955627410969882432 944193354419365685583)⟩
def toymcT3 : ThPt Toy :=
  ⟨(.mk' 660878497080881315833 591587852447002181932), (.mk' 1279608842149383217847 520750630427507699194),
  (.mk' 513894889599148810732 1608531054067467545602), (.mk' 10669859567091527266 1562089107078081056432)⟩
def toymcU3 : ThPt Toy :=
  ⟨(.mk' 1542046044422232274586 1322085656968333999641), (.mk' 1046104119183453543627 1243113548146356933781),
  (.mk' 123609772446142005505 744443890958565770485), (.mk' 1402398886081720341949 916363416509930327909)⟩
def toymcO2 : ThPt Toy :=
  ⟨(.mk' 572404250928045371178 1509276677120480778647), (.mk' 378147413055066242515 719191764372382354833),
  (.mk' 1159622757413469286433 1388285625155744810974), (.mk' 1916157460821455758052 409577815569428713720)⟩
def toymcK2 : ThPt Toy :=
  ⟨(.mk' 489039009894317164607 1799687652677161161243), (.mk' 1436614627461442041784 770267917823758892067),
  (.mk' 1087484132322537448987 883200660485547927931), (.mk' 68115862783161197013 46914483162640568126)⟩
def toymcL2 : ThPt Toy :=
  ⟨(.mk' 936837565380087286049 846763539643903379974), (.mk' 1610463396680317616918 1736026703124169616458),
  (.mk' 1304121272742566393096 1242996568315968791326), (.mk' 1748544284094149148492 1972732350201824971158)⟩
def toymcT2 : ThPt Toy :=
  ⟨(.mk' 472695751154717125657 1340122427744930151232), (.mk' 805055652701839265864 612318283308194118113),
  (.mk' 182463362100019168805 1933471620139931248672), (.mk' 1703022015593458512185 538845477892015040092)⟩
def toymcU2 : ThPt Toy :=
  ⟨(.mk' 409770040957604440596 1183655389010378017985), (.mk' 1193170931071735099575 1977616028520805278041),
  (.mk' 1176053254658753751333 919044508536953800210), (.mk' 1247684092516713446389 888409927188666506840)⟩
def toymcO1 : ThPt Toy :=
  ⟨(.mk' 1512837895504464381494 1201635476243773151150), (.mk' 1202305844391204050949 352391402576673837429),
  (.mk' 77414743568667372440 670152187496939919470), (.mk' 1233773398753700853295 1802152815900649750125)⟩
def toymcK1 : ThPt Toy :=
  ⟨(.mk' 459627799410115809373 691625045970743745433), (.mk' 1424969260084727488895 1070666826309091809243),
  (.mk' 1207111576790005740067 877558316437559839669), (.mk' 1971229644443151797006 1515477569536633687714)⟩
def toymcL1 : ThPt Toy :=
  ⟨(.mk' 790357106207877290313 637981906568491038724), (.mk' 1744296357355479155934 1360497851030165128428),
  (.mk' 149733816797904635178 1439504804637100423057), (.mk' 267713820677987124783 1757652757853606857671)⟩
def toymcT1 : ThPt Toy :=
  ⟨(.mk' 1253301814684689372374 537842504189131115775), (.mk' 1427876256559272263893 268751572921495595502),
  (.mk' 208028389458107597688 887871895408380634414), (.mk' 979446271872868511114 349014302462674280519)⟩
def toymcU1 : ThPt Toy :=
  ⟨(.mk' 346149496853710178614 1933290276226844481312), (.mk' 431729603339388747544 138057614462156653278),
  (.mk' 499902025374861631488 518250288125641296105), (.mk' 989831615377653134096 810207666875231804309)⟩
def toymcO0 : ThPt Toy :=
  ⟨(.mk' 1647691291953479698985 84749639591967979323), (.mk' 1656003726174361226136 1135887577591666116783),
  (.mk' 722636864090195733057 792528723925384232981), (.mk' 0 0)⟩
def toymcK0 : ThPt Toy :=
  ⟨(.mk' 1586326130404257531105 554818142956870331039), (.mk' 1935799005020235050601 728289886992906159334),
  (.mk' 643674271299478174842 561550977271539161384), (.mk' 0 0)⟩
def toymcL0 : ThPt Toy :=
  ⟨(.mk' 1969498886984703986950 559391909512408393201), (.mk' 216344165468582225451 456578225918933757669),
  (.mk' 440648620576710515136 18989382233688820237), (.mk' 0 0)⟩
def toymE3 : Crv Toy :=
  ⟨(.mk' 316216519840407421433 921601188745102679881), (.mk' 1588928585791865602174 733691782463530252242)⟩
def toymE4 : Crv Toy :=
  ⟨(.mk' 1901393601243888483468 1550605339825136190976), (.mk' 1481931370865481285411 387651334956284047744)⟩
def toymI11 : Pt Toy :=
  ⟨(.mk' 553620682036876388268 864578121073044365425), (.mk' 1909853615890077964205 884270756276873730790),
  (.mk' 205324983813555336832 44218395244538088999)⟩
def toymI12 : Pt Toy :=
  ⟨(.mk' 1344144080832546429461 1968559252660588201258), (.mk' 1793514524555031734441 444414284588386728905),
  (.mk' 1918414700499041649422 433558355498924333121)⟩
def toymI21 : Pt Toy :=
  ⟨(.mk' 1729660705042521407357 984395653944779461157), (.mk' 1836738322957732400238 950091692783080854143),
  (.mk' 341537338604116961944 1646103908994051908851)⟩
def toymI22 : Pt Toy :=
  ⟨(.mk' 1470302325659758478253 975189089469899806747), (.mk' 1737093763695181050980 1908921683759239306170),
  (.mk' 1661242055708647201716 141870524543138126895)⟩
def toyml1 : Pt Toy :=
  ⟨(.mk' 491006971032071128509 992722840974247373692), (.mk' 1253798210970044648755 1134503746692159584437),
  (.mk' 1 0)⟩
def toyml2 : Pt Toy :=
  ⟨(.mk' 947160835097748888089 121843344463130201425), (.mk' 1817651432181738096288 1231592899289054473071),
  (.mk' 1 0)⟩

theorem toymStep21 : prodStep 21 toymcO21 toymcK21 toymcL21 toymcT21 toymcU21 toymcO20 toymcK20 toymcL20 = true := by decide +kernel
theorem toymStep20 : prodStep 20 toymcO20 toymcK20 toymcL20 toymcT20 toymcU20 toymcO19 toymcK19 toymcL19 = true := by decide +kernel
theorem toymStep19 : prodStep 19 toymcO19 toymcK19 toymcL19 toymcT19 toymcU19 toymcO18 toymcK18 toymcL18 = true := by decide +kernel
theorem toymStep18 : prodStep 18 toymcO18 toymcK18 toymcL18 toymcT18 toymcU18 toymcO17 toymcK17 toymcL17 = true := by decide +kernel
theorem toymStep17 : prodStep 17 toymcO17 toymcK17 toymcL17 toymcT17 toymcU17 toymcO16 toymcK16 toymcL16 = true := by decide +kernel
theorem toymStep16 : prodStep 16 toymcO16 toymcK16 toymcL16 toymcT16 toymcU16 toymcO15 toymcK15 toymcL15 = true := by decide +kernel
theorem toymStep15 : prodStep 15 toymcO15 toymcK15 toymcL15 toymcT15 toymcU15 toymcO14 toymcK14 toymcL14 = true := by decide +kernel
theorem toymStep14 : prodStep 14 toymcO14 toymcK14 toymcL14 toymcT14 toymcU14 toymcO13 toymcK13 toymcL13 = true := by decide +kernel
theorem toymStep13 : prodStep 13 toymcO13 toymcK13 toymcL13 toymcT13 toymcU13 toymcO12 toymcK12 toymcL12 = true := by decide +kernel
theorem toymStep12 : prodStep 12 toymcO12 toymcK12 toymcL12 toymcT12 toymcU12 toymcO11 toymcK11 toymcL11 = true := by decide +kernel
theorem toymStep11 : prodStep 11 toymcO11 toymcK11 toymcL11 toymcT11 toymcU11 toymcO10 toymcK10 toymcL10 = true := by decide +kernel
theorem toymStep10 : prodStep 10 toymcO10 toymcK10 toymcL10 toymcT10 toymcU10 toymcO9 toymcK9 toymcL9 = true := by decide +kernel
theorem toymStep9 : prodStep 9 toymcO9 toymcK9 toymcL9 toymcT9 toymcU9 toymcO8 toymcK8 toymcL8 = true := by decide +kernel
theorem toymStep8 : prodStep 8 toymcO8 toymcK8 toymcL8 toymcT8 toymcU8 toymcO7 toymcK7 toymcL7 = true := by decide +kernel
theorem toymStep7 : prodStep 7 toymcO7 toymcK7 toymcL7 toymcT7 toymcU7 toymcO6 toymcK6 toymcL6 = true := by decide +kernel
theorem toymStep6 : prodStep 6 toymcO6 toymcK6 toymcL6 toymcT6 toymcU6 toymcO5 toymcK5 toymcL5 = true := by decide +kernel
theorem toymStep5 : prodStep 5 toymcO5 toymcK5 toymcL5 toymcT5 toymcU5 toymcO4 toymcK4 toymcL4 = true := by decide +kernel
theorem toymStep4 : prodStep 4 toymcO4 toymcK4 toymcL4 toymcT4 toymcU4 toymcO3 toymcK3 toymcL3 = true := by decide +kernel
theorem toymStep3 : prodStep 3 toymcO3 toymcK3 toymcL3 toymcT3 toymcU3 toymcO2 toymcK2 toymcL2 = true := by decide +kernel
theorem toymStep2 : prodStep 2 toymcO2 toymcK2 toymcL2 toymcT2 toymcU2 toymcO1 toymcK1 toymcL1 = true := by decide +kernel
theorem toymStep1 : prodLast toymcO1 toymcK1 toymcL1 toymcT1 toymcU1 toymcO0 toymcK0 toymcL0 = true := by decide +kernel

theorem toymChain1 : ProdChain 2 toymcO1 toymcK1 toymcL1 := prodLast_sound toymStep1
theorem toymChain2 : ProdChain 3 toymcO2 toymcK2 toymcL2 := prodStep_sound toymStep2 toymChain1
theorem toymChain3 : ProdChain 4 toymcO3 toymcK3 toymcL3 := prodStep_sound toymStep3 toymChain2
theorem toymChain4 : ProdChain 5 toymcO4 toymcK4 toymcL4 := prodStep_sound toymStep4 toymChain3
theorem toymChain5 : ProdChain 6 toymcO5 toymcK5 toymcL5 := prodStep_sound toymStep5 toymChain4
theorem toymChain6 : ProdChain 7 toymcO6 toymcK6 toymcL6 := prodStep_sound toymStep6 toymChain5
theorem toymChain7 : ProdChain 8 toymcO7 toymcK7 toymcL7 := prodStep_sound toymStep7 toymChain6
theorem toymChain8 : ProdChain 9 toymcO8 toymcK8 toymcL8 := prodStep_sound toymStep8 toymChain7
theorem toymChain9 : ProdChain 10 toymcO9 toymcK9 toymcL9 := prodStep_sound toymStep9 toymChain8
theorem toymChain10 : ProdChain 11 toymcO10 toymcK10 toymcL10 := prodStep_sound toymStep10 toymChain9
theorem toymChain11 : ProdChain 12 toymcO11 toymcK11 toymcL11 := prodStep_sound toymStep11 toymChain10
theorem toymChain12 : ProdChain 13 toymcO12 toymcK12 toymcL12 := prodStep_sound toymStep12 toymChain11
theorem toymChain13 : ProdChain 14 toymcO13 toymcK13 toymcL13 := prodStep_sound toymStep13 toymChain12
theorem toymChain14 : ProdChain 15 toymcO14 toymcK14 toymcL14 := prodStep_sound toymStep14 toymChain13
theorem toymChain15 : ProdChain 16 toymcO15 toymcK15 toymcL15 := prodStep_sound toymStep15 toymChain14
theorem toymChain16 : ProdChain 17 toymcO16 toymcK16 toymcL16 := prodStep_sound toymStep16 toymChain15
theorem toymChain17 : ProdChain 18 toymcO17 toymcK17 toymcL17 := prodStep_sound toymStep17 toymChain16
theorem toymChain18 : ProdChain 19 toymcO18 toymcK18 toymcL18 := prodStep_sound toymStep18 toymChain17
theorem toymChain19 : ProdChain 20 toymcO19 toymcK19 toymcL19 := prodStep_sound toymStep19 toymChain18
theorem toymChain20 : ProdChain 21 toymcO20 toymcK20 toymcL20 := prodStep_sound toymStep20 toymChain19
theorem toymChain21 : ProdChain 22 toymcO21 toymcK21 toymcL21 := prodStep_sound toymStep21 toymChain20

theorem toymGlue_any : (match gluingIsogeny ⟨toyE1, toyE2⟩ (EProd.doubleIter ⟨toyE1, toyE2⟩ ⟨toymR1, toymgP⟩ 22)
    (EProd.doubleIter ⟨toyE1, toyE2⟩ ⟨toymS1, toymgQ⟩ 22) [⟨toymR1, toymgP⟩, ⟨toymS1, toymgQ⟩] with
    | (S, [a, b]) => decide (S.null = toymcO21) && decide (a = toymcK21) && decide (b = toymcL21)
    | _ => false) = true := by decide +kernel

theorem toym_product_any : (productIsogeny ⟨toyE1, toyE2⟩ ⟨toymR1, toymgP⟩ ⟨toymS1, toymgQ⟩
    [⟨toyE1.add toyX1 toymR1, toyX2⟩, ⟨toyE1.add toyY1 toymS1, toyY2⟩] toyC.thetaLen toyC.strategy).any (fun r =>
      decide (r.1.E1 = toymE3) && decide (r.1.E2 = toymE4) && match r.2 with
        | [i, j] => decide (i.P1 = toymI11) && decide (i.P2 = toymI12) && decide (j.P1 = toymI21) && decide (j.P2 = toymI22)
        | _ => false) = true := by decide +kernel

theorem toym_product : productIsogeny ⟨toyE1, toyE2⟩ ⟨toymR1, toymgP⟩ ⟨toymS1, toymgQ⟩
    [⟨toyE1.add toyX1 toymR1, toyX2⟩, ⟨toyE1.add toyY1 toymS1, toyY2⟩] toyC.thetaLen toyC.strategy =
      some (⟨toymE3, toymE4⟩, [⟨toymI11, toymI12⟩, ⟨toymI21, toymI22⟩]) := by
  have h := toym_product_any
  generalize productIsogeny (K := Toy) _ _ _ _ _ _ = o at h ⊢
  rcases o with _ | ⟨⟨a, b⟩, l⟩
  · cases h
  · simp only [Option.any_some, Bool.and_eq_true, decide_eq_true_eq] at h
    obtain ⟨⟨rfl, rfl⟩, h⟩ := h
    match l, h with
    | [⟨i1, i2⟩, ⟨j1, j2⟩], h =>
      simp only [Bool.and_eq_true, decide_eq_true_eq] at h
      obtain ⟨⟨⟨rfl, rfl⟩, rfl⟩, rfl⟩ := h
      rfl

theorem toym_choose : chooseFactor true toyEA' ⟨toymE3, toymE4⟩ ⟨toymI11, toymI12⟩ ⟨toymI21, toymI22⟩ = some (toyml1, toyml2) := by
  decide +kernel

theorem toym_images :
    toyEA'.offAxis (toyEA'.mulD (toyEA'.mulD toyml1 (2 ^ 25)) 169) (toyEA'.mulD toySkP1 (2 ^ 25)) 7 49 = true ∧
    toyEA'.offAxis (toyEA'.mulD (toyEA'.mulD toyml2 (2 ^ 25)) 169) (toyEA'.mulD toySkP1 (2 ^ 25)) 1 343 = true ∧
    toyEA'.offAxis (toyEA'.mulD (toyEA'.mulD toyml1 (2 ^ 25)) 343) toySkP2 13 13 = true ∧
    toyEA'.offAxis (toyEA'.mulD (toyEA'.mulD toyml2 (2 ^ 25)) 343) toySkP2 13 13 = true ∧
    toyEA'.hasPow (toyEA'.mulD (toyEA'.mulD toyml1 (2 ^ 25)) 169) 7 2 = true ∧
    toyEA'.hasPow (toyEA'.mulD (toyEA'.mulD toyml2 (2 ^ 25)) 169) 7 1 = true ∧
    toyEA'.hasPow (toyEA'.mulD (toyEA'.mulD toyml1 (2 ^ 25)) 343) 13 1 = true ∧
    toyEA'.hasPow (toyEA'.mulD (toyEA'.mulD toyml2 (2 ^ 25)) 343) 13 1 = true := by decide +kernel

end Festa
