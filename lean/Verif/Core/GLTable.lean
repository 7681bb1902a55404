/-! Transcription of the tables in /repo/src/math_glquadrature.h:14-60 (generated by tools/gltable.py): each decimal literal
times 10^19. The C++ compiler rounds the literals to the nearest double (relative error 2^-53), which is not represented. -/
namespace Verif.GL

/-- math_glquadrature.h:63-64: `GLPOINTS[N]` (times 10^19); empty list = null pointer. -/
def points : Nat → List Nat
  | 1 => [5000000000000000000]
  | 2 => [2113248654051871000, 7886751345948129000]
  | 3 => [1127016653792583000, 5000000000000000000, 8872983346207417000]
  | 4 => [694318442029737100, 3300094782075719000, 6699905217924281000, 9305681557970263000]
  | 5 => [469100770306680000, 2307653449471584000, 5000000000000000000, 7692346550528415000, 9530899229693320000]
  | 6 => [337652428984239900, 1693953067668677000, 3806904069584016000, 6193095930415985000, 8306046932331322000, 9662347571015760000]
  | 7 => [254460438286207400, 1292344072003028000, 2970774243113014000, 5000000000000000000, 7029225756886985000, 8707655927996972000, 9745539561713793000]
  | 8 => [198550717512318800, 1016667612931866000, 2372337950418355000, 4082826787521751000, 5917173212478249000, 7627662049581645000, 8983332387068134000, 9801449282487681000]
  | 9 => [159198802461869500, 819844463366821000, 1933142836497048000, 3378732882980955000, 5000000000000000000, 6621267117019045000, 8066857163502952000, 9180155536633179000, 9840801197538130000]
  | 10 => [130467357414141400, 674683166555077500, 1602952158504878000, 2833023029353764000, 4255628305091844000, 5744371694908156000, 7166976970646236000, 8397047841495122000, 9325316833444922000, 9869532642585859000]
  | 11 => [108856709269715000, 564687001159523500, 1349239972129753000, 2404519353965941000, 3652284220238275000, 5000000000000000000, 6347715779761725000, 7595480646034060000, 8650760027870247000, 9435312998840476000, 9891143290730285000]
  | 12 => [92196828766403750, 479413718147625700, 1150486629028477000, 2063410228566913000, 3160842505009099000, 4373832957442655000, 5626167042557345000, 6839157494990901000, 7936589771433087000, 8849513370971523000, 9520586281852375000, 9907803171233597000]
  | 13 => [79084726407059260, 412008003885110200, 992109546333450500, 1788253302798299000, 2757536244817766000, 3847708420224326000, 5000000000000000000, 6152291579775674000, 7242463755182235000, 8211746697201701000, 9007890453666549000, 9587991996114890000, 9920915273592941000]
  | 14 => [68580956515938310, 357825581682132400, 863993424651175000, 1563535475941573000, 2423756818209230000, 3404438155360551000, 4459725256463282000, 5540274743536718000, 6595561844639449000, 7576243181790770000, 8436464524058427000, 9136006575348825000, 9642174418317867000, 9931419043484062000]
  | 15 => [60037409897572860, 313633037996470500, 758967082947864000, 1377911343199150000, 2145139136957306000, 3029243264612183000, 3994029530012828000, 5000000000000000000, 6005970469987173000, 6970756735387816000, 7854860863042694000, 8622088656800850000, 9241032917052137000, 9686366962003530000, 9939962590102427000]
  | 16 => [52995325041750330, 277124884633837100, 671843988060841200, 1222977958224985000, 1910618777986781000, 2709916111713863000, 3591982246103705000, 4524937450811813000, 5475062549188188000, 6408017753896295000, 7290083888286137000, 8089381222013219000, 8777022041775016000, 9328156011939158000, 9722875115366163000, 9947004674958250000]
  | 17 => [47122623427913320, 246622391156161200, 598804231365070500, 1092429980515993000, 1711644203916546000, 2436547314567615000, 3243841182730618000, 4107579092520761000, 5000000000000000000, 5892420907479239000, 6756158817269382000, 7563452685432385000, 8288355796083454000, 8907570019484007000, 9401195768634929000, 9753377608843838000, 9952877376572087000]
  | 18 => [42174157895345270, 220880252143011200, 536987667512221300, 981475205137384400, 1541564784698234000, 2201145844630262000, 2941244192685787000, 3740568871542472000, 4576124934791324000, 5423875065208676000, 6259431128457528000, 7058755807314213000, 7798854155369738000, 8458435215301766000, 9018524794862616000, 9463012332487779000, 9779119747856989000, 9957825842104655000]
  | 19 => [37965780782077980, 198959239325849800, 484220481925910500, 886426717314285900, 1395169113323853000, 1997273476691595000, 2677146293120195000, 3417179500181851000, 4198206771798873000, 5000000000000000000, 5801793228201126000, 6582820499818149000, 7322853706879805000, 8002726523308406000, 8604830886676147000, 9113573282685714000, 9515779518074090000, 9801040760674150000, 9962034219217922000]
  | 20 => [34357004074525380, 180140363610431100, 438827858743370500, 804415140888905900, 1268340467699246000, 1819731596367425000, 2445664990245865000, 3131469556422902000, 3861070744291775000, 4617367394332513000, 5382632605667487000, 6138929255708225000, 6868530443577098000, 7554335009754135000, 8180268403632576000, 8731659532300754000, 9195584859111094000, 9561172141256630000, 9819859636389568000, 9965642995925474000]
  | 25 => [22215151047509510, 116680392702412400, 285127143855128300, 525040010608623200, 832786856195830000, 1203703684813212000, 1632168157632658000, 2111685348793885000, 2634986342771425000, 3194138470953061000, 3780665581395058000, 4385676536946448000, 5000000000000000000, 5614323463053552000, 6219334418604943000, 6805861529046939000, 7365013657228575000, 7888314651206115000, 8367831842367341000, 8796296315186788000, 9167213143804170000, 9474959989391377000, 9714872856144872000, 9883319607297587000, 9977784848952490000]
  | 32 => [13680690752592180, 71942442273658330, 176188722062467800, 325469620311301500, 518394221169739400, 753161931337150100, 1027581020160288000, 1339089406298552000, 1684778665348924000, 2061421213796188000, 2465500455338853000, 2893243619346823000, 3340656988589362000, 3803563188739315000, 4277640192086017000, 4758461671561308000, 5241538328438692000, 5722359807913983000, 6196436811260685000, 6659343011410638000, 7106756380653176000, 7534499544661147000, 7938578786203812000, 8315221334651076000, 8660910593701449000, 8972418979839712000, 9246838068662849000, 9481605778830261000, 9674530379688698000, 9823811277937532000, 9928057557726342000, 9986319309247408000]
  | 40 => [8811451447203998, 46368806502714970, 113700250081128700, 210415903931041700, 335935958606617300, 489505965155628500, 670202483938702500, 876938845833441600, 1108471742867403000, 1363408724050365000, 1640216576929102000, 1937230551660099000, 2252664374524359000, 2584620991569107000, 2931103978141975000, 3290029545871208000, 3659239074963732000, 4036512096493144000, 4419579646623724000, 4806137912469746000, 5193862087530254000, 5580420353376276000, 5963487903506856000, 6340760925036268000, 6709970454128792000, 7068896021858025000, 7415379008430893000, 7747335625475641000, 8062769448339902000, 8359783423070898000, 8636591275949635000, 8891528257132597000, 9123061154166558000, 9329797516061298000, 9510494034844371000, 9664064041393383000, 9789584096068958000, 9886299749918871000, 9953631193497285000, 9991188548552796000]
  | _ => []

/-- math_glquadrature.h:63-64: `GLWEIGHTS[N]` (times 10^19). -/
def weights : Nat → List Nat
  | 1 => [10000000000000000000]
  | 2 => [5000000000000000000, 5000000000000000000]
  | 3 => [2777777777777778000, 4444444444444444000, 2777777777777778000]
  | 4 => [1739274225687269000, 3260725774312730000, 3260725774312730000, 1739274225687269000]
  | 5 => [1184634425280945000, 2393143352496832000, 2844444444444444000, 2393143352496832000, 1184634425280945000]
  | 6 => [856622461895851800, 1803807865240693000, 2339569672863455000, 2339569672863455000, 1803807865240693000, 856622461895851800]
  | 7 => [647424830844348500, 1398526957446383000, 1909150252525595000, 2089795918367347000, 1909150252525595000, 1398526957446383000, 647424830844348500]
  | 8 => [506142681451881300, 1111905172266872000, 1568533229389436000, 1813418916891810000, 1813418916891810000, 1568533229389436000, 1111905172266872000, 506142681451881300]
  | 9 => [406371941807872100, 903240803474287000, 1303053482014677000, 1561735385200014000, 1651196775006299000, 1561735385200014000, 1303053482014677000, 903240803474287000, 406371941807872100]
  | 10 => [333356721543440700, 747256745752902900, 1095431812579910000, 1346333596549982000, 1477621123573764000, 1477621123573764000, 1346333596549982000, 1095431812579910000, 747256745752902900, 333356721543440700]
  | 11 => [278342835580868300, 627901847324523100, 931451054638671300, 1165968822959952000, 1314022722551233000, 1364625433889503000, 1314022722551233000, 1165968822959952000, 931451054638671300, 627901847324523100, 278342835580868300]
  | 12 => [235876681932559100, 534696629976592100, 800391642716731100, 1015837133615330000, 1167462682691774000, 1245735229067014000, 1245735229067014000, 1167462682691774000, 1015837133615330000, 800391642716731100, 534696629976592100, 235876681932559100]
  | 13 => [202420023826579400, 460607499188642300, 694367551098936200, 890729903809728700, 1039080237684443000, 1131415901314486000, 1162757766154369000, 1131415901314486000, 1039080237684443000, 890729903809728700, 694367551098936200, 460607499188642300, 202420023826579400]
  | 14 => [175597301658759300, 400790435798801000, 607592853439515900, 786015835790967700, 927691987389689100, 1025992318606478000, 1076319267315789000, 1076319267315789000, 1025992318606478000, 927691987389689100, 786015835790967700, 607592853439515900, 400790435798801000, 175597301658759300]
  | 15 => [153766209980586300, 351830237440540600, 535796102335859700, 697853389630771600, 831346029084969600, 930805000077811100, 992157426635557900, 1012891209627806000, 992157426635557900, 930805000077811100, 831346029084969600, 697853389630771600, 535796102335859700, 351830237440540600, 153766209980586300]
  | 16 => [135762297058770500, 311267619693239500, 475792558412463900, 623144856277669400, 747979944082883700, 845782596975012700, 913017075224617900, 947253052275342500, 947253052275342500, 913017075224617900, 845782596975012700, 747979944082883700, 623144856277669400, 475792558412463900, 311267619693239500, 135762297058770500]
  | 17 => [120741514342739700, 277297646869936000, 425180741585895900, 559419235967019800, 675681842342627400, 770228805384051400, 840020510782250200, 882813526834963200, 897232351781032700, 882813526834963200, 840020510782250200, 770228805384051400, 675681842342627400, 559419235967019800, 425180741585895900, 277297646869936000, 120741514342739700]
  | 18 => [108080067632416600, 248572744474849000, 382128651274445300, 504710220531435800, 612776033557392300, 703214573353253300, 773423375631326200, 821382418729163600, 845711914815718000, 845711914815718000, 821382418729163600, 773423375631326200, 703214573353253300, 612776033557392300, 504710220531435800, 382128651274445300, 248572744474849000, 108080067632416600]
  | 19 => [97308941148632390, 224071133828498000, 345222713688206100, 457450108112250000, 557833227736669900, 643769812696681100, 713033510868033000, 763830210329298300, 794844216969771700, 805272249243918500, 794844216969771700, 763830210329298300, 713033510868033000, 643769812696681100, 557833227736669900, 457450108112250000, 345222713688206100, 224071133828498000, 97308941148632390]
  | 20 => [88070035695760590, 203007149001934700, 313360241670545300, 416383707883523800, 509650599086202200, 590972659807592100, 658443192245883200, 710480546591910200, 745864932363018700, 763766935653629200, 763766935653629200, 745864932363018700, 710480546591910200, 658443192245883200, 590972659807592100, 509650599086202200, 416383707883523800, 313360241670545300, 203007149001934700, 88070035695760590]
  | 25 => [56968992505131440, 131774933075160700, 204695783506531600, 274523479879176000, 340191669061784600, 400703501675005100, 455141309914818300, 502679745335253200, 542598122371318300, 574291295728558200, 597278817678923900, 611212214951550200, 615880268633577200, 611212214951550200, 597278817678923900, 574291295728558200, 542598122371318300, 502679745335253200, 455141309914818300, 400703501675005100, 340191669061784600, 274523479879176000, 204695783506531600, 131774933075160700, 56968992505131440]
  | 32 => [35093050047350480, 81371973654528350, 126960326546310300, 171369314565107200, 214179490111133400, 254990296311880900, 293420467392677700, 329111113881809200, 361728970544242500, 390969478935351600, 416559621134733700, 438260465022019100, 455869393478819500, 469221995404022800, 478193600396374300, 482700442573639000, 482700442573639000, 478193600396374300, 469221995404022800, 455869393478819500, 438260465022019100, 416559621134733700, 390969478935351600, 361728970544242500, 329111113881809200, 293420467392677700, 254990296311880900, 214179490111133400, 171369314565107200, 126960326546310300, 81371973654528350, 35093050047350480]
  | 40 => [22606385492665950, 52491422655764060, 82105291909539450, 111229245970834800, 139685034900117000, 167300976412739200, 193910839872360100, 219354540928366300, 243479038175361200, 266139234919684100, 287198845496957800, 306531212464644700, 324020067283005200, 339560229076169500, 353058236956433900, 364432911979020300, 373615845289841300, 380551809503131200, 385199090821239900, 387529739892124000, 387529739892124000, 385199090821239900, 380551809503131200, 373615845289841300, 364432911979020300, 353058236956433900, 339560229076169500, 324020067283005200, 306531212464644700, 287198845496957800, 266139234919684100, 243479038175361200, 219354540928366300, 193910839872360100, 167300976412739200, 139685034900117000, 111229245970834800, 82105291909539450, 52491422655764060, 22606385492665950]
  | _ => []

end Verif.GL
