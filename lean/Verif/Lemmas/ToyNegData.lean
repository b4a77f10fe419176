import Verif.Lemmas.ToyChain
/-! The chain of the small version of the scheme for the value with the signs on the first curve changed, as in `ToyChainData`. -/
namespace Festa

def toyncO21 : ThPt Toy :=
  ⟨(.mk' 506351864730122092314 1567685578117868538378), (.mk' 205917373616967100696 272097282250849802965),
  (.mk' 1807248567492051228393 1741068658858168526122), (.mk' 1506814076378896236775 445480362991149790709)⟩
def toyncK21 : ThPt Toy :=
  ⟨(.mk' 930123579777489797059 1039271472290270318545), (.mk' 1248798213445495902448 61618626802023961875),
  (.mk' 1063439917152049122023 775756187310763738137), (.mk' 246273225267457872149 454809819580135977758)⟩
def toyncL21 : ThPt Toy :=
  ⟨(.mk' 339680412291808995044 1502185189671979119014), (.mk' 1713099136423611951933 513336335755364957375),
  (.mk' 1114390902023436698369 121362667849768757550), (.mk' 281304527164567088967 1024810060074506575243)⟩
def toyncT21 : ThPt Toy :=
  ⟨(.mk' 1385389406224491445003 588065266405231125207), (.mk' 1087772956828590036800 440634651561142144164),
  (.mk' 196545420988310337719 1590354458427727203423), (.mk' 812006163062300731795 36833216625789291079)⟩
def toyncU21 : ThPt Toy :=
  ⟨(.mk' 2009620090622187259354 803993429056908478939), (.mk' 1297750279897440084048 221806508938860757946),
  (.mk' 941473831922943133719 1952686265401248951893), (.mk' 740069846121945143963 1668471974939958937207)⟩
def toyncO20 : ThPt Toy :=
  ⟨(.mk' 1748772225146741279182 605347072998792839120), (.mk' 1288748806918742421915 1214316990996014852322),
  (.mk' 827672107553678095064 668144156877572421713), (.mk' 161138742598874862017 1538523661345656545019)⟩
def toyncK20 : ThPt Toy :=
  ⟨(.mk' 385276452488722704080 443346997929552036059), (.mk' 75029216181081309197 152305634377555134322),
  (.mk' 449065413900074921530 1416029838696670215044), (.mk' 736969015643233012513 1513100912366536592853)⟩
def toyncL20 : ThPt Toy :=
  ⟨(.mk' 846212480251132169685 202528163755925273957), (.mk' 1259804014547105291168 1599935857717607955657),
  (.mk' 1783545899778923885398 1058468028939928654442), (.mk' 1754202447513063643343 1124870468618903298898)⟩
def toyncT20 : ThPt Toy :=
  ⟨(.mk' 571766382994885390778 667461586011642130850), (.mk' 276615689262965104901 1501300553031409081621),
  (.mk' 1136015300121437880526 1771772154854718852193), (.mk' 1232553656230573488195 1801799195622990524927)⟩
def toyncU20 : ThPt Toy :=
  ⟨(.mk' 516157176993747061646 718497220110828041496), (.mk' 770667889471881875768 402744085209229568697),
  (.mk' 509032031060259081242 758334073073556615417), (.mk' 1515279043012008491030 1244441247822061875841)⟩
def toyncO19 : ThPt Toy :=
  ⟨(.mk' 1671720644169545664692 1723124799676673705496), (.mk' 1491410987810158076685 439986921064184328960),
  (.mk' 1688971631790532906988 1842731522497282594884), (.mk' 1187394559556818338900 20488638979896028834)⟩
def toyncK19 : ThPt Toy :=
  ⟨(.mk' 1507845191842487258594 809626396013728284232), (.mk' 2002142329895620819140 1505480091627773107205),
  (.mk' 1486387965070253239379 313536712652139316741), (.mk' 276599990833332175909 952229051223750364701)⟩
def toyncL19 : ThPt Toy :=
  ⟨(.mk' 1074428129314561977731 287817640693133548635), (.mk' 1146092659268643190376 1561344181399971349499),
  (.mk' 1073788562956065896691 1530878693814466148681), (.mk' 1447355429646561460759 883232935499544964751)⟩
def toyncT19 : ThPt Toy :=
  ⟨(.mk' 419076351613353408147 1354070398735678965647), (.mk' 870440214966574367407 1576892902694647551304),
  (.mk' 1724222508850676855989 1214419394551417356230), (.mk' 1401629852060802820650 844361214629350773710)⟩
def toyncU19 : ThPt Toy :=
  ⟨(.mk' 201270956799909751929 10706701993216311180), (.mk' 57753542210380152961 877999434715601077219),
  (.mk' 557035966638216061163 1782877551856116343558), (.mk' 1892274579400481830280 1519129183873873399927)⟩
def toyncO18 : ThPt Toy :=
  ⟨(.mk' 1880894005510309288054 1972952649004451646870), (.mk' 1309600978615219064834 711841425830257106453),
  (.mk' 1387043172063532108407 361480956373696885912), (.mk' 1461959667137994525970 980056851009631018939)⟩
def toyncK18 : ThPt Toy :=
  ⟨(.mk' 1696472793936827876134 1763102155261526310513), (.mk' 1769295722518186387004 211724124507282375062),
  (.mk' 1730132764742324039360 1905082030270645346224), (.mk' 30138410738342356872 1670994686128436854007)⟩
def toyncL18 : ThPt Toy :=
  ⟨(.mk' 1685303086407461690254 1561583657351455198041), (.mk' 6327966898502390291 24918800943743548544),
  (.mk' 817644879333927664841 1808751546412863365769), (.mk' 706218728274226675080 84653925038246997338)⟩
def toyncT18 : ThPt Toy :=
  ⟨(.mk' 1589507858236806612820 1688263867168140497616), (.mk' 1541831467875453670638 1927254179747458112973),
  (.mk' 717554335144110126576 307511839308753607196), (.mk' 1550612638332949945420 1982328903612539415175)⟩
def toyncU18 : ThPt Toy :=
  ⟨(.mk' 167754752290460435914 1497764682339042403798), (.mk' 1205720567361589856628 645643383715353191612),
  (.mk' 1236185253039964777786 721572489857570286595), (.mk' 2311539083444682040 102267317189081542193)⟩
def toyncO17 : ThPt Toy :=
  ⟨(.mk' 890912763072656255188 1744839856671103254397), (.mk' 1404158629509978197427 1632791828313630830704),
  (.mk' 325198742528441574178 1639421738593008963502), (.mk' 1406061747106960631385 1022444399749311938658)⟩
def toyncK17 : ThPt Toy :=
  ⟨(.mk' 1738837219229332248719 1541839951106793997503), (.mk' 893181156140652475312 1119313431206174464006),
  (.mk' 371199093656090920477 1827293795258820061817), (.mk' 1876545124381611419606 781485852500911735121)⟩
def toyncL17 : ThPt Toy :=
  ⟨(.mk' 170616209766544826118 1260652417972394982960), (.mk' 1358848413519795840234 1869401165292461993455),
  (.mk' 334918030881496809591 1729025116747566840687), (.mk' 1480566683237510810619 1663051887858472870072)⟩
def toyncT17 : ThPt Toy :=
  ⟨(.mk' 175531334522814596564 1999148163780217929286), (.mk' 146370080832745369014 1214737137875751527425),
  (.mk' 1886230033819846948479 1875144032390886963660), (.mk' 1655231403768940263275 356080982761454454846)⟩
def toyncU17 : ThPt Toy :=
  ⟨(.mk' 1354806484463201607223 157142141516819156382), (.mk' 231053574860125130225 1792108797281107920475),
  (.mk' 1374464271262684728140 1615708100849202509661), (.mk' 263640433628085204393 1644112705612410445096)⟩
def toyncO16 : ThPt Toy :=
  ⟨(.mk' 557272443824914321466 1397187732666695082150), (.mk' 1765473518382551046774 154522989127558432503),
  (.mk' 1295816219308525514027 1968703262065338594260), (.mk' 407769700702045775911 505917898358444549261)⟩
def toyncK16 : ThPt Toy :=
  ⟨(.mk' 1229448482138400915524 1468627869067543854928), (.mk' 959044998135155637635 734056209951078792528),
  (.mk' 1781900483919278917211 881725287300939416288), (.mk' 1516321067582640027234 1756940812005418394063)⟩
def toyncL16 : ThPt Toy :=
  ⟨(.mk' 1594782519676198317485 1513917531998233274433), (.mk' 1202897343873978540800 1244866072962423187863),
  (.mk' 1715277982502502456575 1226802990995739022596), (.mk' 1249881425248729857327 693699978488264791772)⟩
def toyncT16 : ThPt Toy :=
  ⟨(.mk' 414591824073904006967 532551180523521524005), (.mk' 1274432879024142891490 1786729904867647243676),
  (.mk' 1346315353957327032174 1916430386957528016933), (.mk' 570738707101402114880 1483002170769460764081)⟩
def toyncU16 : ThPt Toy :=
  ⟨(.mk' 1336845123872197596849 124792426689283165714), (.mk' 1947019127596071221250 103461896875542706627),
  (.mk' 2005589935776090442298 959598985760337098770), (.mk' 1449331434537680906135 179396154320719334596)⟩
def toyncO15 : ThPt Toy :=
  ⟨(.mk' 417425959410441989221 703459735111685850812), (.mk' 1305800849298016891993 1431701782211915970990),
  (.mk' 1817531494316526480878 773977918795653800711), (.mk' 485573579193051296086 1117192446098781035661)⟩
def toyncK15 : ThPt Toy :=
  ⟨(.mk' 156435224121661607262 1778551609576296164222), (.mk' 1201408987061608867256 526234044722344242370),
  (.mk' 728792085380872683328 107640325228066567999), (.mk' 64997213593582051441 1222629587033829692975)⟩
def toyncL15 : ThPt Toy :=
  ⟨(.mk' 822083891474025293939 546930741822266385947), (.mk' 1855906228101316922259 1998337412125939890984),
  (.mk' 797473634661496380500 1349985014111997367885), (.mk' 918463443406016974047 824800100881561222105)⟩
def toyncT15 : ThPt Toy :=
  ⟨(.mk' 1576367989847966022932 468008340800186132167), (.mk' 1333459314566020998776 1465934228302527515524),
  (.mk' 1637278888207975927169 760787926522150997157), (.mk' 871125193240009008214 2005394350714138915327)⟩
def toyncU15 : ThPt Toy :=
  ⟨(.mk' 1488476148158107041010 1323881466930493206353), (.mk' 375276277179065636161 758724572852521856348),
  (.mk' 706915538725065248386 977308407687351082913), (.mk' 544488940270370416077 1762697094909697532295)⟩
def toyncO14 : ThPt Toy :=
  ⟨(.mk' 1820156391066548170077 342557977100951181481), (.mk' 1538130506124156281893 1690866673944635561191),
  (.mk' 1749512614430168710640 1264966188592219162428), (.mk' 931698311706181824655 727941042580230753074)⟩
def toyncK14 : ThPt Toy :=
  ⟨(.mk' 1326485831904453987500 1678747194867500090480), (.mk' 1026111952136912113156 1970011173195600533820),
  (.mk' 1634203892766900233739 1704183333061606237459), (.mk' 368250681653852498464 860357649439496915581)⟩
def toyncL14 : ThPt Toy :=
  ⟨(.mk' 505601790397100605397 959094004693182828234), (.mk' 1383890357642127046005 390362650976930351215),
  (.mk' 1645779177273212987211 339345362037470762268), (.mk' 288632990294559341000 171837236633950752252)⟩
def toyncT14 : ThPt Toy :=
  ⟨(.mk' 1608347136045751099736 1882704725617947876020), (.mk' 1188279976719403103634 635905758448864984408),
  (.mk' 214056416697169771778 804563754242505439377), (.mk' 1921212942888118705964 1969240460606147996159)⟩
def toyncU14 : ThPt Toy :=
  ⟨(.mk' 738773676626569373898 1798351596395362944140), (.mk' 173483265899567859366 95952196631558789324),
  (.mk' 273913407816454200791 351834262522927819594), (.mk' 1612552690179708198923 1123342282569850780881)⟩
def toyncO13 : ThPt Toy :=
  ⟨(.mk' 2010088872591613715190 498569429579820703059), (.mk' 558807003518554020589 1080034559166086649559),
  (.mk' 2003991444678143120943 1171032458476608809864), (.mk' 1466610502538744130543 1276695434995520495692)⟩
def toyncK13 : ThPt Toy :=
  ⟨(.mk' 1407097118944860762773 133521367146844333569), (.mk' 1009758471258872292014 1985533282730451791523),
  (.mk' 628051103983509195393 91337409380390497757), (.mk' 789660850500303172632 1401043379515464031320)⟩
def toyncL13 : ThPt Toy :=
  ⟨(.mk' 1373729202803901185675 1449237882507522615568), (.mk' 399059254869430150573 363056653443494521863),
  (.mk' 989696306503836269749 741518162260431242343), (.mk' 684341649440458371665 978019801761247170305)⟩
def toyncT13 : ThPt Toy :=
  ⟨(.mk' 198541960364884067493 85549067007547699434), (.mk' 823469385826279604953 329262889633104905855),
  (.mk' 961451153159849569781 1788365597191627817929), (.mk' 816402584475624414074 1236780940287225534703)⟩
def toyncU13 : ThPt Toy :=
  ⟨(.mk' 1791436436178364347540 765368281372457127363), (.mk' 1192519847649127522784 380574869470096908131),
  (.mk' 1364756611812777255315 1499953301759700128258), (.mk' 67815952840013612065 955544079612253353441)⟩
def toyncO12 : ThPt Toy :=
  ⟨(.mk' 989790298892565824156 1830615178409871303723), (.mk' 899585996753280709622 593255801278600848201),
  (.mk' 1149346866176074623489 1092739818122460845640), (.mk' 987608720396115500911 509721084407103660610)⟩
def toyncK12 : ThPt Toy :=
  ⟨(.mk' 1935246524064225755584 1468826296228856087862), (.mk' 1146394245518061236143 47300575836300482780),
  (.mk' 1588207800235760448426 1646226263488382196120), (.mk' 1756017755323211090813 1505152631020913368939)⟩
def toyncL12 : ThPt Toy :=
  ⟨(.mk' 1642844527507511885895 1234215829682767867220), (.mk' 1342649645316809699896 317284304715012877560),
  (.mk' 1494395701690914577512 1656431552033990837945), (.mk' 617606030817161793877 1912262140986037718744)⟩
def toyncT12 : ThPt Toy :=
  ⟨(.mk' 1480927039504538079225 1037138773541614564547), (.mk' 1728075292939353132437 425522574520650068643),
  (.mk' 1029337257132975510784 933930644511637073625), (.mk' 167071618469898012019 1698386307183772908743)⟩
def toyncU12 : ThPt Toy :=
  ⟨(.mk' 1784761560844228435211 1606285390700613559537), (.mk' 1420615329315297834432 954343349045623538933),
  (.mk' 990998349971906598692 844970818113310877230), (.mk' 1365442582193309824335 906985624102756887822)⟩
def toyncO11 : ThPt Toy :=
  ⟨(.mk' 177866594083600011559 1837777834858946189646), (.mk' 928971238915422376879 921916376685501855393),
  (.mk' 1401829514412958991862 801466092953401341609), (.mk' 1517664534806055277878 465171577720187271526)⟩
def toyncK11 : ThPt Toy :=
  ⟨(.mk' 146450918663783655916 972310964849621412544), (.mk' 1992503120947210332319 367935526237784816954),
  (.mk' 1617151423692559963580 1182349129726945756411), (.mk' 1371320799535272607941 1152631826982623604538)⟩
def toyncL11 : ThPt Toy :=
  ⟨(.mk' 1433963506819501286846 1840747783794667810192), (.mk' 350733439083273900713 1187682402637549302156),
  (.mk' 803431914332944276236 786327523487202257281), (.mk' 1020220691777867210053 712284353228068568778)⟩
def toyncT11 : ThPt Toy :=
  ⟨(.mk' 4817737806405083724 1489492581400925914405), (.mk' 1188269352407577439938 449790829032356837610),
  (.mk' 670246932247941673824 657511400888088060134), (.mk' 700081442284041291112 1929212464386897995124)⟩
def toyncU11 : ThPt Toy :=
  ⟨(.mk' 275072293906440396149 664229693617477983038), (.mk' 144543738763457128713 1260391828240444704689),
  (.mk' 1659363093377506637579 1014780928536427020762), (.mk' 633147896715678200691 842084910597293496651)⟩
def toyncO10 : ThPt Toy :=
  ⟨(.mk' 406989986737257241588 1333983865208731729903), (.mk' 1773747214133596767632 1683581669457101364712),
  (.mk' 589976728022270207410 771286436312484812829), (.mk' 1255617953324912441548 237479911239718750730)⟩
def toyncK10 : ThPt Toy :=
  ⟨(.mk' 1106605495438689890576 729506570955695054638), (.mk' 412578111314636134762 1384874146220226286143),
  (.mk' 1882721113081785735373 1230005937267236655257), (.mk' 1033261475730462214663 223809012153028825808)⟩
def toyncL10 : ThPt Toy :=
  ⟨(.mk' 2010714665977207775930 102601677296040434984), (.mk' 1529548175628434134863 171574942959010083721),
  (.mk' 595498864772424675078 830519920647879748503), (.mk' 1714859643405273338146 657786225742052006753)⟩
def toyncT10 : ThPt Toy :=
  ⟨(.mk' 960648660222358987541 754457816985025606007), (.mk' 364197693839150893260 1465189180674672681767),
  (.mk' 119231525444211830026 1581606409286468286769), (.mk' 1923785015698014391414 989839542651437311791)⟩
def toyncU10 : ThPt Toy :=
  ⟨(.mk' 1881926568551075624698 717639436720110841295), (.mk' 1548798233663647864099 984809739798222472236),
  (.mk' 1480956244399202232766 18663974554494510074), (.mk' 197245069873727242904 1662843406073698698851)⟩
def toyncO9 : ThPt Toy :=
  ⟨(.mk' 1232601822146494127272 490676495344374454718), (.mk' 1390995975246546797802 156121035384983054025),
  (.mk' 1415260377432572844269 205679127308723072100), (.mk' 2000639648501441217922 1160689283070937748244)⟩
def toyncK9 : ThPt Toy :=
  ⟨(.mk' 342718528839833056927 1731224751800257332839), (.mk' 348028139379433598472 1295723717881618762428),
  (.mk' 670433970775675148770 1234450193693871076673), (.mk' 431306578753978757742 1357789559235418939168)⟩
def toyncL9 : ThPt Toy :=
  ⟨(.mk' 592671679567514603463 349109841714086368508), (.mk' 1995889551188707609671 302294475891374849318),
  (.mk' 892595192741539796747 712453515980888901282), (.mk' 1986910085592366779435 1517799090709238028949)⟩
def toyncT9 : ThPt Toy :=
  ⟨(.mk' 635509128625057930772 361002160897889257345), (.mk' 308234392466153078562 794617455731456875035),
  (.mk' 1612454217158157222088 1246879654882967706888), (.mk' 1110497979329376463399 779349393664100749781)⟩
def toyncU9 : ThPt Toy :=
  ⟨(.mk' 601336505282965021326 1630223511110133354962), (.mk' 1698749431300363385430 1195905995101440853089),
  (.mk' 1501257972104691014479 1965778925228589337038), (.mk' 1983627953744325473119 1003209528137680890357)⟩
def toyncO8 : ThPt Toy :=
  ⟨(.mk' 1679597835140851629610 1535980925253360792972), (.mk' 773204510363434962701 1696213808340469548987),
  (.mk' 1860336454338556118616 867477930904995849130), (.mk' 1726359023484212276338 1939825158828228796172)⟩
def toyncK8 : ThPt Toy :=
  ⟨(.mk' 1457429529646134471539 1076531666033352596624), (.mk' 1603569874479232312576 1535620983915172522011),
  (.mk' 1467154776820302141741 194381708834881952450), (.mk' 703406977329177464248 970915556591091833046)⟩
def toyncL8 : ThPt Toy :=
  ⟨(.mk' 1312104245213273429969 2008792667059235938543), (.mk' 368946159299669917446 801709255705043143830),
  (.mk' 16693280963738149485 573693464275916872511), (.mk' 520219246170960393930 1479047204126623010899)⟩
def toyncT8 : ThPt Toy :=
  ⟨(.mk' 547315659365336006960 1050839775654920757173), (.mk' 824204406920127560326 7298051231475041340),
  (.mk' 909591068780595083740 1786921778570260855286), (.mk' 825513495304579735211 528806905176583501621)⟩
def toyncU8 : ThPt Toy :=
  ⟨(.mk' 270770593437929750574 1782729435882949317442), (.mk' 176378094656360358351 1346751573384067314865),
  (.mk' 276638956756220219977 1148623534082278292680), (.mk' 1713534306995781233473 896621349283623117520)⟩
def toyncO7 : ThPt Toy :=
  ⟨(.mk' 1539403132262749561126 1178863407123309069949), (.mk' 1927287597681140491399 129226200091809673457),
  (.mk' 679695899990407044368 968755103065562650501), (.mk' 1893111193392757890372 1749487171937355264267)⟩
def toyncK7 : ThPt Toy :=
  ⟨(.mk' 1886628934786385201326 1274478969986489699507), (.mk' 264547052545841206230 963750091387643688340),
  (.mk' 1338524723353253367493 867106501144116318381), (.mk' 2008514655569642141543 837033052185420652426)⟩
def toyncL7 : ThPt Toy :=
  ⟨(.mk' 1078019954476603943277 1230053967306311507465), (.mk' 1974725380819132805264 861627931788161315485),
  (.mk' 703068480461812088487 174021303831936092079), (.mk' 1999560966063717455897 1109620485168024035342)⟩
def toyncT7 : ThPt Toy :=
  ⟨(.mk' 476769063977973736435 1495095944899720963168), (.mk' 917061103940773831386 1403096081306616547820),
  (.mk' 1267022751408892156173 692400852003909315761), (.mk' 1998915871953452900850 1620158811384227842327)⟩
def toyncU7 : ThPt Toy :=
  ⟨(.mk' 497577624077968794007 1836752165241026133674), (.mk' 776979138106854137736 1043881486722190226717),
  (.mk' 642318938221601320766 571242785206490446057), (.mk' 1478216591879683001840 681273354407267115279)⟩
def toyncO6 : ThPt Toy :=
  ⟨(.mk' 644921947369294871838 960683050613179367873), (.mk' 286899186377551414909 1386032462423568286803),
  (.mk' 427221254811494331463 815790744458721911538), (.mk' 654123552550677710881 863825624722567091960)⟩
def toyncK6 : ThPt Toy :=
  ⟨(.mk' 643251308709235571784 559963969170219791054), (.mk' 1647175931985632059465 1244139771538006461181),
  (.mk' 1838648670079238730662 223457824759667059943), (.mk' 759550416808303757476 180731578618012519609)⟩
def toyncL6 : ThPt Toy :=
  ⟨(.mk' 1052882016670848719700 369622515099200921136), (.mk' 1617484774561309317936 331900912309677191158),
  (.mk' 547429824268633426136 231649702813599429595), (.mk' 447624149744521879711 486633507002361232860)⟩
def toyncT6 : ThPt Toy :=
  ⟨(.mk' 1624659317884775799635 292650144860168099303), (.mk' 40296310589488545931 1648361262297393457863),
  (.mk' 291849051425451756856 1212726665105466102579), (.mk' 906989798996970904914 649647510649342160740)⟩
def toyncU6 : ThPt Toy :=
  ⟨(.mk' 921888004985839665056 1468355193384458586061), (.mk' 1070047989014834919661 398045810451486042351),
  (.mk' 1788728562511262515145 1343551217746711449684), (.mk' 101689742983077721152 1202881642886385583250)⟩
def toyncO5 : ThPt Toy :=
  ⟨(.mk' 220432388839483661561 1553102134006774546288), (.mk' 196358916511494872336 582087747795672621149),
  (.mk' 92028443137867015284 1190873597553056505851), (.mk' 1504346192620172779910 700268402862532984886)⟩
def toyncK5 : ThPt Toy :=
  ⟨(.mk' 1039988622411210158268 1344583561647245698536), (.mk' 529107457388297958172 1135384619648776976961),
  (.mk' 1936974091990992161932 1772100483025409256557), (.mk' 419471211523959627406 929135752227602176366)⟩
def toyncL5 : ThPt Toy :=
  ⟨(.mk' 549293447481040403551 1222032423495591103501), (.mk' 1189618967446780413786 11787204134697895876),
  (.mk' 1097933964718878003024 1199212230198462915862), (.mk' 1904003369585856227908 188445099953182758314)⟩
def toyncT5 : ThPt Toy :=
  ⟨(.mk' 735351998493837138161 276971836142935150817), (.mk' 457600287712590022495 1371660559085305141031),
  (.mk' 125532395869144536701 972229319447579308599), (.mk' 1592367044425613818512 698162820310242346872)⟩
def toyncU5 : ThPt Toy :=
  ⟨(.mk' 1431982011223338557094 85157069656604975109), (.mk' 1240563714189661395247 1374355896892388612735),
  (.mk' 177494734956483834248 926168903425016254914), (.mk' 1040219304080538907471 644694183393920151408)⟩
def toyncO4 : ThPt Toy :=
  ⟨(.mk' 1924206935340928983841 383256492808557904401), (.mk' 513451436043641294624 939577249966536139646),
  (.mk' 59781617228486820533 1909310803737816920168), (.mk' 1528891893604979559180 794187335705125693959)⟩
def toyncK4 : ThPt Toy :=
  ⟨(.mk' 959437234298500907820 223779889084184206719), (.mk' 346957167825022452196 489166781911046269328),
  (.mk' 1640282057358445650804 2008032894868035910586), (.mk' 740391808120799222179 902007413948442383967)⟩
def toyncL4 : ThPt Toy :=
  ⟨(.mk' 775250847403545081347 1124313860568744611827), (.mk' 1077592195858031529740 319760448048131854883),
  (.mk' 344614533672995524567 238353211090924852495), (.mk' 66490248487792075036 592702825164899553394)⟩
def toyncT4 : ThPt Toy :=
  ⟨(.mk' 1653355665675695611702 434357286871565813294), (.mk' 1802501590576390529966 661211157962943475932),
  (.mk' 155719577847083810962 1748698141972660485081), (.mk' 1926572814674772165187 1501351556815082327281)⟩
def toyncU4 : ThPt Toy :=
  ⟨(.mk' 416716090306087793105 797833603875475150091), (.mk' 847240001541163193596 537631057725479609687),
  (.mk' 1915624172888374504481 1996056079516619180554), (.mk' 359073192746777673719 97653063525687873750)⟩
def toyncO3 : ThPt Toy :=
  ⟨(.mk' 667555267842959203473 154640758405431597444), (.mk' 1598474099802334474998 774617725437905670202),
  (.mk' 815234162375936774715 528226643073584901292), (.mk' 945068352196806204992 555680814192096160149)⟩
def toyncK3 : ThPt Toy :=
  ⟨(.mk' 1742556088305328527818 1034742798892686263916), (.mk' 1330600329226570501118 1182180725357758104453),
  (.mk' 662037243189173147924 1523723525863341476810), (.mk' 18218193139138899415 1427444522110011160074)⟩
def toyncL3 : ThPt Toy :=
  ⟨(.mk' 1113122398733655694469 1428182518867257046619), (.mk' 1795136011751268268854 879611172742918431164),
  (.mk' 1495850280698733296826 1279582867288063040279), (.mk' 872459881490253759759 1797470845982588487991)⟩
def toyncT3 : ThPt Toy :=
  ⟨(.mk' 954441224086180949202 285220323876123801633), (.mk' 189512497883783858030 74353549147884361715),
  (.mk' 1481678965949129965517 587255491261213638030), (.mk' 356417320622654311706 1623983411999954497602)⟩
def toyncU3 : ThPt Toy :=
  ⟨(.mk' 97730608388829796623 1138019415506451576066), (.mk' 1872638891138076893226 1025859356870436926857),
  (.mk' 1603669668882882894677 933444361242332594709), (.mk' 1440690217730203080201 1800282839630899798890)⟩
def toyncO2 : ThPt Toy :=
  ⟨(.mk' 572404250928045371178 1509276677120480778647), (.mk' 378147413055066242515 719191764372382354833),
  (.mk' 1159622757413469286433 1388285625155744810974), (.mk' 1916157460821455758052 409577815569428713720)⟩
def toyncK2 : ThPt Toy :=
  ⟨(.mk' 990865796653960847067 1689193154955214933488), (.mk' 1389460690423899297624 1963858417643399956023),
  (.mk' 1587121371494477334114 626889442109419112093), (.mk' 649512577514966611958 1140971076619447591689)⟩
def toyncL2 : ThPt Toy :=
  ⟨(.mk' 338708807347966866967 1975528660338688211693), (.mk' 1917816566756090575207 1396369862967387471554),
  (.mk' 1946529579578691679264 1561156170102341462506), (.mk' 1182571242601529765072 1804940509421252417712)⟩
def toyncT2 : ThPt Toy :=
  ⟨(.mk' 346619532482413724416 1982427683330098490424), (.mk' 1155645868060601792073 1114874932184558337631),
  (.mk' 1222140328785361300652 1014123463331000763998), (.mk' 1767535381824509814554 1036652009925852343139)⟩
def toyncU2 : ThPt Toy :=
  ⟨(.mk' 537670183409393232271 1280205172465345248355), (.mk' 546299175274326451623 1427853325930361121315),
  (.mk' 231909455111965358877 1090311546952994190273), (.mk' 1459267155358565054932 1479809814329403502696)⟩
def toyncO1 : ThPt Toy :=
  ⟨(.mk' 1512837895504464381494 1201635476243773151150), (.mk' 1202305844391204050949 352391402576673837429),
  (.mk' 77414743568667372440 670152187496939919470), (.mk' 1233773398753700853295 1802152815900649750125)⟩
def toyncK1 : ThPt Toy :=
  ⟨(.mk' 260094734479664219335 1014795795332392654958), (.mk' 994443780115561669613 995480177589031363508),
  (.mk' 980932151037129303998 371973614551436176970), (.mk' 711558927710923061586 831114814182358929079)⟩
def toyncL1 : ThPt Toy :=
  ⟨(.mk' 126827727132840870633 521452751211704947016), (.mk' 1593933184692067904005 971066045623254936017),
  (.mk' 779367254470385458829 1550213652357545351681), (.mk' 296408139341346880950 1083785416870963116910)⟩
def toyncT1 : ThPt Toy :=
  ⟨(.mk' 1239686543672917213284 1738548573653866967712), (.mk' 369965312107450372752 1557441331575826749861),
  (.mk' 838468114834393751320 1723562928711769281570), (.mk' 1556626733068580658283 308961278483621953586)⟩
def toyncU1 : ThPt Toy :=
  ⟨(.mk' 27942539050005312642 1250543768191384664988), (.mk' 51990504620869245929 1218938745608687507384),
  (.mk' 1738043984887791070121 525506997365489877130), (.mk' 1518048169134455916016 1762659752345816678416)⟩
def toyncO0 : ThPt Toy :=
  ⟨(.mk' 1647691291953479698985 84749639591967979323), (.mk' 1656003726174361226136 1135887577591666116783),
  (.mk' 722636864090195733057 792528723925384232981), (.mk' 0 0)⟩
def toyncK0 : ThPt Toy :=
  ⟨(.mk' 576585613376127674983 1830722062824629544934), (.mk' 1272214532138696260959 1928755062645039819402),
  (.mk' 1758925037022177051198 814107749250659529053), (.mk' 0 0)⟩
def toyncL0 : ThPt Toy :=
  ⟨(.mk' 1723221462569561825550 1699945734859410945911), (.mk' 1127472104641077997386 1646668311645024561285),
  (.mk' 1190948334913637965912 409559707430329519234), (.mk' 0 0)⟩
def toynE3 : Crv Toy :=
  ⟨(.mk' 316216519840407421433 921601188745102679881), (.mk' 1588928585791865602174 733691782463530252242)⟩
def toynE4 : Crv Toy :=
  ⟨(.mk' 1901393601243888483468 1550605339825136190976), (.mk' 1481931370865481285411 387651334956284047744)⟩
def toynI11 : Pt Toy :=
  ⟨(.mk' 771939711493999117303 232470465966927443412), (.mk' 1836566887457922687456 78921332661311392234),
  (.mk' 1351613122815972262167 1083259431167849350669)⟩
def toynI12 : Pt Toy :=
  ⟨(.mk' 1642865267657385504539 1062562332832104051486), (.mk' 1607799719419431357354 1207243538032133255036),
  (.mk' 1313428844009821297178 122163556810732147189)⟩
def toynI21 : Pt Toy :=
  ⟨(.mk' 335307471082558525312 1328961504940603878890), (.mk' 999606119724347269586 1961696480562213221023),
  (.mk' 1170632982034376309976 1477710795814908410569)⟩
def toynI22 : Pt Toy :=
  ⟨(.mk' 616421648154126302428 173280128417192427502), (.mk' 1022522553437908918518 1661668297963207216037),
  (.mk' 927814190454051531610 22538633521913934130)⟩
def toynl1 : Pt Toy :=
  ⟨(.mk' 716453713396895147612 410487840011552723663), (.mk' 1068674254801251652424 1056970267676378367029),
  (.mk' 1 0)⟩
def toynl2 : Pt Toy :=
  ⟨(.mk' 1532950725006061810221 96284404866583371157), (.mk' 484558597040420275053 89440631599489182864),
  (.mk' 1 0)⟩

theorem toynStep21 : prodStep 21 toyncO21 toyncK21 toyncL21 toyncT21 toyncU21 toyncO20 toyncK20 toyncL20 = true := by decide +kernel
theorem toynStep20 : prodStep 20 toyncO20 toyncK20 toyncL20 toyncT20 toyncU20 toyncO19 toyncK19 toyncL19 = true := by decide +kernel
theorem toynStep19 : prodStep 19 toyncO19 toyncK19 toyncL19 toyncT19 toyncU19 toyncO18 toyncK18 toyncL18 = true := by decide +kernel
theorem toynStep18 : prodStep 18 toyncO18 toyncK18 toyncL18 toyncT18 toyncU18 toyncO17 toyncK17 toyncL17 = true := by decide +kernel
theorem toynStep17 : prodStep 17 toyncO17 toyncK17 toyncL17 toyncT17 toyncU17 toyncO16 toyncK16 toyncL16 = true := by decide +kernel
theorem toynStep16 : prodStep 16 toyncO16 toyncK16 toyncL16 toyncT16 toyncU16 toyncO15 toyncK15 toyncL15 = true := by decide +kernel
theorem toynStep15 : prodStep 15 toyncO15 toyncK15 toyncL15 toyncT15 toyncU15 toyncO14 toyncK14 toyncL14 = true := by decide +kernel
theorem toynStep14 : prodStep 14 toyncO14 toyncK14 toyncL14 toyncT14 toyncU14 toyncO13 toyncK13 toyncL13 = true := by decide +kernel
theorem toynStep13 : prodStep 13 toyncO13 toyncK13 toyncL13 toyncT13 toyncU13 toyncO12 toyncK12 toyncL12 = true := by decide +kernel
theorem toynStep12 : prodStep 12 toyncO12 toyncK12 toyncL12 toyncT12 toyncU12 toyncO11 toyncK11 toyncL11 = true := by decide +kernel
theorem toynStep11 : prodStep 11 toyncO11 toyncK11 toyncL11 toyncT11 toyncU11 toyncO10 toyncK10 toyncL10 = true := by decide +kernel
theorem toynStep10 : prodStep 10 toyncO10 toyncK10 toyncL10 toyncT10 toyncU10 toyncO9 toyncK9 toyncL9 = true := by decide +kernel
theorem toynStep9 : prodStep 9 toyncO9 toyncK9 toyncL9 toyncT9 toyncU9 toyncO8 toyncK8 toyncL8 = true := by decide +kernel
theorem toynStep8 : prodStep 8 toyncO8 toyncK8 toyncL8 toyncT8 toyncU8 toyncO7 toyncK7 toyncL7 = true := by decide +kernel
theorem toynStep7 : prodStep 7 toyncO7 toyncK7 toyncL7 toyncT7 toyncU7 toyncO6 toyncK6 toyncL6 = true := by decide +kernel
theorem toynStep6 : prodStep 6 toyncO6 toyncK6 toyncL6 toyncT6 toyncU6 toyncO5 toyncK5 toyncL5 = true := by decide +kernel
theorem toynStep5 : prodStep 5 toyncO5 toyncK5 toyncL5 toyncT5 toyncU5 toyncO4 toyncK4 toyncL4 = true := by decide +kernel
theorem toynStep4 : prodStep 4 toyncO4 toyncK4 toyncL4 toyncT4 toyncU4 toyncO3 toyncK3 toyncL3 = true := by decide +kernel
theorem toynStep3 : prodStep 3 toyncO3 toyncK3 toyncL3 toyncT3 toyncU3 toyncO2 toyncK2 toyncL2 = true := by decide +kernel
theorem toynStep2 : prodStep 2 toyncO2 toyncK2 toyncL2 toyncT2 toyncU2 toyncO1 toyncK1 toyncL1 = true := by decide +kernel
theorem toynStep1 : prodLast toyncO1 toyncK1 toyncL1 toyncT1 toyncU1 toyncO0 toyncK0 toyncL0 = true := by decide +kernel

theorem toynChain1 : ProdChain 2 toyncO1 toyncK1 toyncL1 := prodLast_sound toynStep1
theorem toynChain2 : ProdChain 3 toyncO2 toyncK2 toyncL2 := prodStep_sound toynStep2 toynChain1
theorem toynChain3 : ProdChain 4 toyncO3 toyncK3 toyncL3 := prodStep_sound toynStep3 toynChain2
theorem toynChain4 : ProdChain 5 toyncO4 toyncK4 toyncL4 := prodStep_sound toynStep4 toynChain3
theorem toynChain5 : ProdChain 6 toyncO5 toyncK5 toyncL5 := prodStep_sound toynStep5 toynChain4
theorem toynChain6 : ProdChain 7 toyncO6 toyncK6 toyncL6 := prodStep_sound toynStep6 toynChain5
theorem toynChain7 : ProdChain 8 toyncO7 toyncK7 toyncL7 := prodStep_sound toynStep7 toynChain6
theorem toynChain8 : ProdChain 9 toyncO8 toyncK8 toyncL8 := prodStep_sound toynStep8 toynChain7
theorem toynChain9 : ProdChain 10 toyncO9 toyncK9 toyncL9 := prodStep_sound toynStep9 toynChain8
theorem toynChain10 : ProdChain 11 toyncO10 toyncK10 toyncL10 := prodStep_sound toynStep10 toynChain9
theorem toynChain11 : ProdChain 12 toyncO11 toyncK11 toyncL11 := prodStep_sound toynStep11 toynChain10
theorem toynChain12 : ProdChain 13 toyncO12 toyncK12 toyncL12 := prodStep_sound toynStep12 toynChain11
theorem toynChain13 : ProdChain 14 toyncO13 toyncK13 toyncL13 := prodStep_sound toynStep13 toynChain12
theorem toynChain14 : ProdChain 15 toyncO14 toyncK14 toyncL14 := prodStep_sound toynStep14 toynChain13
theorem toynChain15 : ProdChain 16 toyncO15 toyncK15 toyncL15 := prodStep_sound toynStep15 toynChain14
theorem toynChain16 : ProdChain 17 toyncO16 toyncK16 toyncL16 := prodStep_sound toynStep16 toynChain15
theorem toynChain17 : ProdChain 18 toyncO17 toyncK17 toyncL17 := prodStep_sound toynStep17 toynChain16
theorem toynChain18 : ProdChain 19 toyncO18 toyncK18 toyncL18 := prodStep_sound toynStep18 toynChain17
theorem toynChain19 : ProdChain 20 toyncO19 toyncK19 toyncL19 := prodStep_sound toynStep19 toynChain18
theorem toynChain20 : ProdChain 21 toyncO20 toyncK20 toyncL20 := prodStep_sound toynStep20 toynChain19
theorem toynChain21 : ProdChain 22 toyncO21 toyncK21 toyncL21 := prodStep_sound toynStep21 toynChain20

theorem toynGlue_any : (match gluingIsogeny ⟨toyE1, toyE2⟩ (EProd.doubleIter ⟨toyE1, toyE2⟩ ⟨toyR1.neg, toygP⟩ 22)
    (EProd.doubleIter ⟨toyE1, toyE2⟩ ⟨toyS1.neg, toygQ⟩ 22) [⟨toyR1.neg, toygP⟩, ⟨toyS1.neg, toygQ⟩] with
    | (S, [a, b]) => decide (S.null = toyncO21) && decide (a = toyncK21) && decide (b = toyncL21)
    | _ => false) = true := by decide +kernel

theorem toyn_product_any : (productIsogeny ⟨toyE1, toyE2⟩ ⟨toyR1.neg, toygP⟩ ⟨toyS1.neg, toygQ⟩
    [⟨toyE1.add toyX1 toyR1.neg, toyX2⟩, ⟨toyE1.add toyY1 toyS1.neg, toyY2⟩] toyC.thetaLen toyC.strategy).any (fun r =>
      decide (r.1.E1 = toynE3) && decide (r.1.E2 = toynE4) && match r.2 with
        | [i, j] => decide (i.P1 = toynI11) && decide (i.P2 = toynI12) && decide (j.P1 = toynI21) && decide (j.P2 = toynI22)
        | _ => false) = true := by decide +kernel

theorem toyn_product : productIsogeny ⟨toyE1, toyE2⟩ ⟨toyR1.neg, toygP⟩ ⟨toyS1.neg, toygQ⟩
    [⟨toyE1.add toyX1 toyR1.neg, toyX2⟩, ⟨toyE1.add toyY1 toyS1.neg, toyY2⟩] toyC.thetaLen toyC.strategy =
      some (⟨toynE3, toynE4⟩, [⟨toynI11, toynI12⟩, ⟨toynI21, toynI22⟩]) := by
  have h := toyn_product_any
  generalize productIsogeny (K := Toy) _ _ _ _ _ _ = o at h ⊢
  rcases o with _ | ⟨⟨a, b⟩, l⟩
  · cases h
  · simp only [Option.any_some, Bool.and_eq_true, decide_eq_true_eq] at h
    obtain ⟨⟨rfl, rfl⟩, h⟩ := h
    match l, h with
    | [⟨i1, i2⟩, ⟨j1, j2⟩], h =>
      simp only [Bool.and_eq_true, decide_eq_true_eq] at h
      obtain ⟨⟨⟨rfl, rfl⟩, rfl⟩, rfl⟩ := h
      rfl

theorem toyn_choose : chooseFactor true toyEA' ⟨toynE3, toynE4⟩ ⟨toynI11, toynI12⟩ ⟨toynI21, toynI22⟩ = some (toynl1, toynl2) := by
  decide +kernel

theorem toyn_images :
    toyEA'.offAxis (toyEA'.mulD (toyEA'.mulD toynl1 (2 ^ 25)) 169) (toyEA'.mulD toySkP1 (2 ^ 25)) 7 49 = true ∧
    toyEA'.offAxis (toyEA'.mulD (toyEA'.mulD toynl2 (2 ^ 25)) 169) (toyEA'.mulD toySkP1 (2 ^ 25)) 1 343 = true ∧
    toyEA'.offAxis (toyEA'.mulD (toyEA'.mulD toynl1 (2 ^ 25)) 343) toySkP2 13 13 = true ∧
    toyEA'.offAxis (toyEA'.mulD (toyEA'.mulD toynl2 (2 ^ 25)) 343) toySkP2 13 13 = true ∧
    toyEA'.hasPow (toyEA'.mulD (toyEA'.mulD toynl1 (2 ^ 25)) 169) 7 2 = true ∧
    toyEA'.hasPow (toyEA'.mulD (toyEA'.mulD toynl2 (2 ^ 25)) 169) 7 1 = true ∧
    toyEA'.hasPow (toyEA'.mulD (toyEA'.mulD toynl1 (2 ^ 25)) 343) 13 1 = true ∧
    toyEA'.hasPow (toyEA'.mulD (toyEA'.mulD toynl2 (2 ^ 25)) 343) 13 1 = true := by decide +kernel

end Festa
