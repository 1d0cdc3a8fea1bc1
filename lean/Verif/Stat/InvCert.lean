import Verif.Stat.CdfProof

/-!
The first value of `stdnormal_inv`.

If `u` is the inverse of the distribution function `Φ` then `u' exp (-u²/2) = √(2π)` and so `u'' / u' = u u'`.  The
rational functions of the code nearly solve this equation; in the tail, where the argument is `t = √(-2 log q)`, the
equation is `u'' / u' - 1 / t = u u' - t`.
-/

namespace OP.Stat

def kA : List ℤ := [2506628277459239, -30664798066147160, 138357751867269000, -275928510446968700, 220946098424520500,
  -39696830286653760]
def kB : List ℤ := [1000000000000000, -13280681552885720, 66801311887719720, -155698979859886600, 161585836858040900,
  -54476098798224060]
def jC : List ℤ := [2938163982698783000, 4374664141464968000, -2549732539343734000, -2400758277161838000, -322396458041136500,
  -7784894002430293]
def jD : List ℤ := [1000000000000000000, 3754408661907416000, 2445134137142996000, 322467129070039800, 7784695709041462]

theorem hor_sa (t : ℝ) : hor sa t = ev kA t / 10 ^ 15 := by
  simp only [hor, sa, List.foldl, ev, kA]; push_cast; norm_num; ring
theorem hor_sb (t : ℝ) : hor sb t = ev kB t / 10 ^ 15 := by
  simp only [hor, sb, List.foldl, ev, kB]; push_cast; norm_num; ring
theorem hor_sc (t : ℝ) : hor sc t = ev jC t / 10 ^ 18 := by
  simp only [hor, sc, List.foldl, ev, jC]; push_cast; norm_num; ring
theorem hor_sd (t : ℝ) : hor sd t = ev jD t / 10 ^ 18 := by
  simp only [hor, sd, List.foldl, ev, jD]; push_cast; norm_num; ring

def wron (a b : List ℤ) : List ℤ := addl (mull (derl a) b) (smul (-1) (mull a (derl b)))

def cub (l : List ℤ) : List ℤ := mull l (mull l l)

/-! Central region, `u = s A (s²) / B (s²)`. -/

/-- `u' = W (s²) / B (s²) ^ 2`. -/
def kW : List ℤ := addl (mull kA kB) (smul 2 (0 :: wron kA kB))

/-- `(1 - 4 t) ^ 5`. -/
def kq : List ℤ := [1, -20, 160, -640, 1280, -1024]

def numI : List ℤ := addl (smul 2 (addl (mull (derl kW) (cub kB)) (smul (-2) (mull kW (mull (derl kB) (mull kB kB))))))
  (smul (-1) (mull kA (mull kW kW)))

def bndI : List ℤ := mull (addl (smul 3000000000 kq) [16384000]) (mull kW (cub kB))

def posI : List ℤ := [711404752254525426058236509790502731081000000000000000000000000000000000000000000000,
  1445631444202607620350581961095376344569549395593370126640000000000000000000000000000000,
  -197307453194231129910739373218172353782985848431596677338999644233076209600000000000000000,
  12384751316318780131405990519746004290065471300095560769325488252222918825600000000000000000,
  -483854944591022691846747177573986931931910363687006905339751532803474636537157604802560000000,
  13267290417151474531491334307732549970185788841657587843177026581834104824892493532200960000000,
  -272463245965897546356070756635655131721586674292098378195828132192862833328714175540920320000000,
  4364361463429184876546888546513935926877164887076241847198699916668466708297998696221081600000000,
  -56046721032589108520412603471876280348385974433847008575972184566464352200801467035271127040000000,
  588377839164298736273183118655639248561345963043833060858165623519657960268599498758227804160000000,
  -5121443211148039137289218229597843344468005260577393266997754190540052161896784176953579888640000000,
  37348185367574763544477205063434464045820801224852117403832256038125418697567841095965623255040000000,
  -229910739736640285390087924893244068910806792538182360391726308466997706298507467832463602483200000000,
  1201007611159896091283502088226360014050884159262788696899592880836366317360051628481656552611840000000,
  -5341758785037980419116275128363518222553585822246144656741736716649349494778536088572246031728640000000,
  20262650242153934315828655342693513637685391673818411805055249852796642187438887999806675782656000000000,
  -65556715053760246217425967087726953384887296159798784405778504572986482041037046152554009351567360000000,
  180636374221419490205621996810929044064344012830680853479703592228441956067156513919796437999513600000000,
  -422583485071004743495921507966339070693065121818006365649376192263750077574962246908623229339238400000000,
  835250987775712951711847912646980695157602603938056818956930597577558711311030331297895530880307200000000,
  -1385179984426379599448065887861635621300998838732111958914198438389085748890016928147534216306288640000000,
  1909413897553503317923859674571444469202551521862765009790759507936183253581637349433385633773363200000000,
  -2160682954387228951966509982034821107238607900551443281798168549077406568434143709363746881196032000000000,
  1974572206987810049187067216682036087092360852157644579650026936079248047354106965439594843169792000000000,
  -1426368103826163191375668380935961900752327331150389467513503572890214564303187083861180039097344000000000,
  791978450625505050054966026839094917512252292460730644602621257133692584614261427487368900675993600000000,
  -326146538203491536480374358996271588634646750874157726854964836264533330879778881041288089600000000000000,
  95522709953884841746674586664755303716659315231315780393628005869712889943517811947685888000000000000000,
  -19153517884770028481917758481931230588299239394509654710083396918073957003858668036255744000000000000000,
  2562752369212900515485039911121516452900511368827756927636973232152646940148203610226688000000000000000,
  -190097756966552813842538889784143045894734679966504890300043289253730937759837396716748800000000000000]
def negI : List ℤ := [14410502107896692917493763490209497268919000000000000000000000000000000000000000000000,
  -2703066133961592320226638324423286099449549395593370126640000000000000000000000000000000,
  247484492965636722447967230642603241718985848431596677338999644233076209600000000000000000,
  -13663864976548834686199191356786612405941385268734886723733784913821126825600000000000000000,
  507249196935985454570775146756906450489757703769932745861792468593810284707642395197440000000,
  -13594134471522659418915684216309908848199885984251880407400457647249338190419506467799040000000,
  276089680674192463944094326560839994243439600029474530211340457957995306876114624459079680000000,
  -4397159081831956752430748972694884346185039271653936990367463849083148973379812503778918400000000,
  56292977601843176142911423823554786187234931875982050072433754033938817420131565764728872960000000,
  -589933356072137234289522219187910468284194823617587658595526766279401947745487696441772195840000000,
  5129789988131387855534695950091553777136761180665473471366175003074370086870165927846420111360000000,
  -37386502536863570724935582548045953283226964291338464344068246673239914624590918475234376744960000000,
  230061985316629326330343379036714065558226639682285040529762854593091633781673117457136397516800000000,
  -1201522656316048300656178738604409421711579233395645629231482848288793595755713016110343447388160000000,
  5343274859591211791030473420873108054191421943205062900770935012007129754152953555763753968271360000000,
  -20266510310733227775020802711051380593096048192012508934517758825269551666163763902388524217344000000000,
  65565211569576804997162826339450400951081553666319818037762883926524172488307926075285990648432640000000,
  -180652515316022852421797004024451130499503923962570839132037265014994001793965009349195562000486400000000,
  422609875714301025376715326268918246851023705007457835738101624371815217192352916375536770660761600000000,
  -835287976034928596807354536533192377307552705261452840894396615405601747484684025671704469119692800000000,
  1385224194786658160110853408123700819060974378248022105712424919439961735753882158565809783693711360000000,
  -1909458673267918461235623458159775504895370990545390739108739859041479041172185961162454366226636800000000,
  2160721086404763973255933209153423621010008499863862878058533852504338421201506150362333118803968000000000,
  -1974599271668377593416898465368143107513188998773702643507025018902066447426173099264405156830208000000000,
  1426383951757732527116840418609986859152100091113838822573138271975560020857037446622019960902656000000000,
  -791986016396815456350574499275571788302298310810696721673134964519131589655887672278391099324006400000000,
  326149437688234575870081883943503057039436651296478113428668664371910679722402736213111910400000000000000,
  -95523579838119284713354693055499127399698987927125386354766530943775720381536817530714112000000000000000,
  19153712247954129222595035175525930874302723971519812100243083503136851845364782587744256000000000000000,
  -2562781326687508939779616667347514638994001878934985679641402598499475761587191717773312000000000000000,
  190099904950508114230271409583747141095402251757353260917150439669706855523098616083251200000000000000]

theorem posI_eq : samel (addl bndI (smul (10 ^ 15) (mull numI kq))) posI = true := by decide +kernel
theorem negI_eq : samel (addl bndI (smul (-10 ^ 15) (mull numI kq))) negI = true := by decide +kernel

theorem kB_check : pieces (scalel 4096 6 (addl (smul 1000 kB) [-10 ^ 15])) 0 [232, 464, 580, 696, 812, 870, 928] = true := by decide +kernel
theorem kW_check : pieces (scalel 4096 11 (addl kW (smul (-2) (mull kB kB)))) 0
    [232, 348, 464, 580, 638, 696, 754, 812, 841, 870, 899, 928] = true := by decide +kernel
theorem posI_check : pieces (scalel 4096 31 posI) 0
    [7, 21, 35, 49, 63, 91, 119, 147, 161, 175, 203, 231, 259, 273, 287, 301, 315, 329, 343, 357, 371, 399, 413, 427,
      441, 455, 469, 483, 497, 511, 525, 539, 553, 567, 581, 595, 609, 616, 623, 630, 637, 644, 658, 672, 686, 700, 714,
      721, 728, 735, 749, 763, 777, 791, 805, 812, 826, 840, 854, 861, 868, 875, 882, 889, 896, 903, 910, 917, 922, 928] = true := by decide +kernel
theorem negI_check : pieces (scalel 4096 31 negI) 0
    [7, 21, 35, 49, 63, 91, 119, 147, 161, 175, 203, 231, 259, 273, 287, 301, 315, 329, 343, 357, 371, 399, 413, 427,
      441, 455, 469, 483, 497, 511, 525, 539, 553, 567, 581, 595, 609, 616, 623, 630, 637, 644, 658, 672, 686, 700, 714,
      721, 728, 735, 749, 763, 777, 791, 805, 812, 826, 840, 854, 861, 868, 875, 882, 889, 896, 903, 910, 917, 922, 928] = true := by decide +kernel

/-! Tail, `u = C t / D t`. -/

/-- `u' = W t / D t ^ 2`. -/
def jW : List ℤ := wron jC jD

def numJ : List ℤ := addl (addl (addl (mull (0 :: derl jW) (cub jD))
    (smul (-2) (mull (0 :: derl jD) (mull jW (mull jD jD)))))
  (smul (-1) (mull jW (cub jD)))) (addl (smul (-1) (mull (0 :: jC) (mull jW jW))) (mull (0 :: 0 :: jW) (cub jD)))

def bndJ : List ℤ := smul (-1) (mull [14 * 10 ^ 12, 0, 0, 0, 0, 0, 14 * 10 ^ 8, 0, 0, 0, 0, 0, 8] (mull jW (cub jD)))

def posJ : List ℤ := [93189658313972276810378266246192000000000000000000000000000000000000000000000000000000000000000000000000,
  1322166433753517320236922707913404223738899679616000000000000000000000000000000000000000000000000000000000,
  8118463336537873425887329515859978603638367665472692945854432256000000000000000000000000000000000000000000,
  28770522897591675044254500971362559343980394591103951079415793157773204905336832000000000000000000000000000,
  66373565581244203533596045809009744789763920514207845599989137394641539111464960000000000000000000000000000,
  172725408625781179325808961139074940277404187455221167753557799737807863990729113600000000000000000000000000,
  69092951852280783555310866390270172099620714473323261577394571598356943629207840768000000000000000000000000,
  -653168731581045623181296693406555788063455426702408475140211701101260774340002844672000000000000000000000000,
  -1026276417998683816774099119348427171521247091922128668303845468467514902622075562649600000000000000000000000,
  -477235981451137133628123540195997180716240335826383524656052335795470301016746226209280000000000000000000000,
  155367907351405651709915216072953965251513325404108113029343779337767614083282411447296000000000000000000000,
  142530662329556667168163703645450868888807345998058349020650680655995065694215436782566400000000000000000000,
  55923351676783914557867006703444540880248057692812145959854223807725494655557294304015488000000000000000000,
  -17773829162227120160562651679946781774627219654642349181833065143018519745800259647527232000000000000000000,
  -13039740747590332510000743906093347246644262184169796564142644432884881142847624938928528000000000000000000,
  2602302485803609644639871483565867638778624505538314081457478275030135736192877989657980032000000000000000,
  604050147346760147025460558935110406679062686515642887457987207617797702324758331715060736000000000000000,
  -115324518919395825628677281125599816846057066431635216453210838006181942063094924756453580800000000000000,
  -10891070774456945543718534758970537774311252962155545966568452814666430285322747171267323904000000000000,
  2121987623084036037494441722492235536036178839769469070673633924570470328965670499615372416000000000000,
  71888570726937229493072297294500313682488408495474924142842380393104662832178070751422700800000000000,
  -16367429633137104179032560391332834234967443661334898176719171226978387794853273219833525760000000000,
  -2604341948570671584975152137734732523505131988354723798927065835204759270938679767769088000000000,
  40921672302851200131935720672591338834347243126152434091615348535489655461301165996269260800000000,
  -182860326175611154234497194206386046653078673730628617403813052613365770448212983710206464000000,
  -41247096294800815276087740818947225603070687995776309648731142059539705327610483221634304000000,
  122090147074494125182924839682769997613451399487329240452224321894084781814793305722304000000,
  14730628678385163500421057243898355568351287515696331017140950722551689860922375176265216000,
  7399883708152195106432175430994620655918558354182109370869199838340850508714456625152000,
  222858723088519723428824555376865540384057058218068862352914991205556734452978944000000,
  4285026232793156025056572499479110719407276776922042411681030806322960271339221248000,
  47372147214679435500021584146040862252552260266491657311141732944372991322274368000,
  228722693202070210932230272974900654306646905885399986412476549568967722344710784]
def negJ : List ℤ := [93189658313972276810378266246192000000000000000000000000000000000000000000000000000000000000000000000000,
  1322166433753517320236922707913404223738899679616000000000000000000000000000000000000000000000000000000000,
  8118463336537873425887329515859978603638367665472692945854432256000000000000000000000000000000000000000000,
  28770522897591675044254500971362559343980394591103951079415793157773204905336832000000000000000000000000000,
  66373565581244203533596045809009744789763920514207845599989137394641539111464960000000000000000000000000000,
  39597325320106498168125723644514940277404187455221167753557799737807863990729113600000000000000000000000000,
  173673536646783516240518700129110392787199520468490323930819380891984578858647840768000000000000000000000000,
  854816264769736315225855034638459463422587617517320739754865456345336251976797155328000000000000000000000000,
  1149080059040481303701950414832025117990655348677873703944295604268216185532356437350400000000000000000000000,
  532289546996387929448264947449767753856558404773901489181799181030623287995462413790720000000000000000000000,
  -137207586075467624140246683258984808561813326769219461675617802926058020647783988552704000000000000000000000,
  -138128247653512972142226686270072125918180111127350224527246009585576593839625907217433600000000000000000000,
  -55128504951224272632167273647117028917276460455997551001339314251427603428009224735984512000000000000000000,
  17892091793788894367643733521158680254186958578391856256667483174647888665432674752472768000000000000000000,
  13060977165029319259306842885928786509045416678574010156895890416787796693346493461071472000000000000000000,
  -2596219283783298934899569968131039264218836190853281056566273721691221720954663930342019968000000000000000,
  -602209543021643932948269918065082851965253058645165902794776744017095714384191316284939264000000000000000,
  115763417286518822614035288684482065578614089208836901954752946592335737954482207403546419200000000000000,
  10968142918629799599222281567373366941810341500396440806178208519072825260551638108732676096000000000000,
  -2112177551586037792183325581159548247680821367924702762431870518733191604144482940384627584000000000000,
  -70992878184346912169964448810647064465470414005867851577438403052976812092073907488577299200000000000,
  16425303173365654430645186441968739188677849018567511617925999977292528075227440380166474240000000000,
  5204670987316980888642963146357025384357051438518911112893917766386474471918840232230912000000000,
  -40841168216968704453730953435976921390079925010614271658214768883133155798367314003730739200000000,
  184800411116273571505857252350425571453337940354162997162166606630463867729067016289793536000000,
  41319732491860080373137954801498604436318678349917104576742183755273070944212556778365696000000,
  -116892256591990264861900715101221446992638329262690587258805451565931697201206694277696000000,
  -14400102482177743846397839428203726694253064084237702699203922862673587104277624823734784000,
  7399883708152195106432175430994620655918558354182109370869199838340850508714456625152000,
  222858723088519723428824555376865540384057058218068862352914991205556734452978944000000,
  4285026232793156025056572499479110719407276776922042411681030806322960271339221248000,
  47372147214679435500021584146040862252552260266491657311141732944372991322274368000,
  228722693202070210932230272974900654306646905885399986412476549568967722344710784]

theorem posJ_eq : samel (addl bndJ (smul (10 ^ 16) (0 :: 0 :: 0 :: 0 :: 0 :: numJ))) posJ = true := by decide +kernel
theorem negJ_eq : samel (addl bndJ (smul (-10 ^ 16) (0 :: 0 :: 0 :: 0 :: 0 :: numJ))) negJ = true := by decide +kernel

theorem jW_check : pieces (scalel 16 9 (addl (smul (-1) jW) (smul (-1) (mull jD jD)))) 43 [618] = true := by
  decide +kernel
theorem posJ_check : pieces (scalel 16 33 posJ) 43
    [60, 77, 94, 111, 128, 162, 196, 213, 247, 281, 315, 349, 417, 485, 551, 584, 618] = true := by decide +kernel
theorem negJ_check : pieces (scalel 16 33 negJ) 43
    [60, 77, 94, 111, 128, 162, 196, 213, 247, 281, 315, 349, 417, 485, 551, 584, 618] = true := by decide +kernel

end OP.Stat
