/-!
# Tables of the quadrature rules

Transcribed from `source/integration/integrations_1D/integration_gausslegendre_1D.cpp` (lines 32-1227) and
`source/integration/integrations_2D/integration_dunavant_2D.cpp` (lines 126-898). Decimal literals are given as integers: in units of
10^-31 for the line rules and of 10^-15 for the triangle rules.
-/

namespace Verif.Quadrature

/-- `GaussLegendre_1D::GPData`: weights and points of the rule with n points, lines 32-1227. -/
def gaussData : Nat → List (Int × Int)
  | 1 => [(20000000000000000000000000000000, 0)]
  | 2 => [(10000000000000000000000000000000, -5773502691896257645091487805020),
      (10000000000000000000000000000000, 5773502691896257645091487805020)]
  | 3 => [(5555555555555555555555555555560, -7745966692414833770358530799560),
      (8888888888888888888888888888890, 0),
      (5555555555555555555555555555560, 7745966692414833770358530799560)]
  | 4 => [(3478548451374538573730639492220, -8611363115940525752239464888930),
      (6521451548625461426269360507780, -3399810435848562648026657591030),
      (6521451548625461426269360507780, 3399810435848562648026657591030),
      (3478548451374538573730639492220, 8611363115940525752239464888930)]
  | 5 => [(2369268850561890875142640407200, -9061798459386639927976268782990),
      (4786286704993664680412915148360, -5384693101056830910363144207000),
      (5688888888888888888888888888890, 0),
      (4786286704993664680412915148360, 5384693101056830910363144207000),
      (2369268850561890875142640407200, 9061798459386639927976268782990)]
  | 6 => [(1713244923791703450402961421730, -9324695142031520278123015544940),
      (3607615730481386075698335138380, -6612093864662645136613995950200),
      (4679139345726910473898703439900, -2386191860831969086305017216810),
      (4679139345726910473898703439900, 2386191860831969086305017216810),
      (3607615730481386075698335138380, 6612093864662645136613995950200),
      (1713244923791703450402961421730, 9324695142031520278123015544940)]
  | 7 => [(1294849661688696932706114326790, -9491079123427585245261896840480),
      (2797053914892766679014677714240, -7415311855993944398638647732810),
      (3818300505051189449503697754890, -4058451513773971669066064120770),
      (4179591836734693877551020408160, 0),
      (3818300505051189449503697754890, 4058451513773971669066064120770),
      (2797053914892766679014677714240, 7415311855993944398638647732810),
      (1294849661688696932706114326790, 9491079123427585245261896840480)]
  | 8 => [(1012285362903762591525313543100, -9602898564975362316835608685690),
      (2223810344533744705443559944260, -7966664774136267395915539364760),
      (3137066458778872873379622019870, -5255324099163289858177390491890),
      (3626837833783619829651504492770, -1834346424956498049394761423600),
      (3626837833783619829651504492770, 1834346424956498049394761423600),
      (3137066458778872873379622019870, 5255324099163289858177390491890),
      (2223810344533744705443559944260, 7966664774136267395915539364760),
      (1012285362903762591525313543100, 9602898564975362316835608685690)]
  | 9 => [(812743883615744119718921581110, -9681602395076260898355762030000),
      (1806481606948574040584720312400, -8360311073266357942994297880000),
      (2606106964029354623187428694200, -6133714327005903973087020390000),
      (3123470770400028400686304065800, -3242534234038089290385380150000),
      (3302393550012597631645250692900, 0),
      (3123470770400028400686304065800, 3242534234038089290385380150000),
      (2606106964029354623187428694200, 6133714327005903973087020390000),
      (1806481606948574040584720312400, 8360311073266357942994297880000),
      (812743883615744119718921581110, 9681602395076260898355762030000)]
  | 10 => [(666713443086881375935688098930, -9739065285171717200779640120000),
      (1494513491505805931457763396600, -8650633666889845107320966880000),
      (2190863625159820439955349342300, -6794095682990244062343273650000),
      (2692667193099963550912269215700, -4333953941292471907992659430000),
      (2955242247147528701738929946500, -1488743389816312108848260010000),
      (2955242247147528701738929946500, 1488743389816312108848260010000),
      (2692667193099963550912269215700, 4333953941292471907992659430000),
      (2190863625159820439955349342300, 6794095682990244062343273650000),
      (1494513491505805931457763396600, 8650633666889845107320966880000),
      (666713443086881375935688098930, 9739065285171717200779640120000)]
  | 11 => [(556685671161736664827537204430, -9782286581460569928039380010000),
      (1255803694649046246346942992200, -8870625997680952990751577690000),
      (1862902109277342514260976414300, -7301520055740493240934162520000),
      (2331937645919904799185237048400, -5190961292068118159257256690000),
      (2628045445102466621806888698900, -2695431559523449723315319850000),
      (2729250867779006307144835283400, 0),
      (2628045445102466621806888698900, 2695431559523449723315319850000),
      (2331937645919904799185237048400, 5190961292068118159257256690000),
      (1862902109277342514260976414300, 7301520055740493240934162520000),
      (1255803694649046246346942992200, 8870625997680952990751577690000),
      (556685671161736664827537204430, 9782286581460569928039380010000)]
  | 12 => [(471753363865118271946159614850, -9815606342467192506905490900000),
      (1069393259953184309602547181900, -9041172563704748566784658660000),
      (1600783285433462263346525295400, -7699026741943046870368938330000),
      (2031674267230659217490644558100, -5873179542866174472967024190000),
      (2334925365383548087608498989200, -3678314989981801937526915370000),
      (2491470458134027850005624360400, -1252334085114689154724413690000),
      (2491470458134027850005624360400, 1252334085114689154724413690000),
      (2334925365383548087608498989200, 3678314989981801937526915370000),
      (2031674267230659217490644558100, 5873179542866174472967024190000),
      (1600783285433462263346525295400, 7699026741943046870368938330000),
      (1069393259953184309602547181900, 9041172563704748566784658660000),
      (471753363865118271946159614850, 9815606342467192506905490900000)]
  | 13 => [(404840047653158795200215922010, -9841830547185881494728294490000),
      (921214998377284479144217759540, -9175983992229779652065478370000),
      (1388735102197872384636017768700, -8015780907333099127942064900000),
      (1781459807619457382800466920000, -6423493394403402206439846070000),
      (2078160475368885023125232193100, -4484927510364468528779128520000),
      (2262831802628972384120901860400, -2304583159551347940655281210000),
      (2325515532308739101945895152700, 0),
      (2262831802628972384120901860400, 2304583159551347940655281210000),
      (2078160475368885023125232193100, 4484927510364468528779128520000),
      (1781459807619457382800466920000, 6423493394403402206439846070000),
      (1388735102197872384636017768700, 8015780907333099127942064900000),
      (921214998377284479144217759540, 9175983992229779652065478400000),
      (404840047653158795200215922010, 9841830547185881494728294500000)]
  | 14 => [(351194603317518630318328761380, -9862838086968123388415972670000),
      (801580871597602098056332770600, -9284348836635735173363911390000),
      (1215185706879031846894148090700, -8272013150697649931897947430000),
      (1572031671581935345696019386200, -6872929048116854701480198030000),
      (1855383974779378137417165901300, -5152486363581540919652907190000),
      (2051984637212956039659240656600, -3191123689278897604356718240000),
      (2152638534631577901958764433200, -1080549487073436620662446500000),
      (2152638534631577901958764433200, 1080549487073436620662446500000),
      (2051984637212956039659240656600, 3191123689278897604356718200000),
      (1855383974779378137417165901300, 5152486363581540919652907200000),
      (1572031671581935345696019386200, 6872929048116854701480198000000),
      (1215185706879031846894148090700, 8272013150697649931897947400000),
      (801580871597602098056332770600, 9284348836635735173363911400000),
      (351194603317518630318328761380, 9862838086968123388415972700000)]
  | 15 => [(307532419961172683546283935770, -9879925180204854284895657190000),
      (703660474881081247092674164510, -9372733924007059043077589480000),
      (1071592204671719350118695466860, -8482065834104272162006483210000),
      (1395706779261543144478047945100, -7244177313601700474161860550000),
      (1662692058169939335532008604800, -5709721726085388475372267370000),
      (1861610000155622110268005618700, -3941513470775633698972073710000),
      (1984314853271115764561183264400, -2011940939974345223006283030000),
      (2025782419255612728806201999700, 0),
      (1984314853271115764561183264400, 2011940939974345223006283000000),
      (1861610000155622110268005618700, 3941513470775633698972073700000),
      (1662692058169939335532008604800, 5709721726085388475372267400000),
      (1395706779261543144478047945100, 7244177313601700474161860500000),
      (1071592204671719350118695466860, 8482065834104272162006483200000),
      (703660474881081247092674164510, 9372733924007059043077589500000),
      (307532419961172683546283935770, 9879925180204854284895657200000)]
  | 16 => [(271524594117540948517805724560, -9894009349916499325961541730000),
      (622535239386478928628438369940, -9445750230732325760779884160000),
      (951585116824927848099251076000, -8656312023878317438804678980000),
      (1246289712555338720524762821900, -7554044083550030338951011950000),
      (1495959888165767320815017305500, -6178762444026437484466717640000),
      (1691565193950025381893120790300, -4580167776572273863424194430000),
      (1826034150449235888667636679700, -2816035507792589132304605010000),
      (1894506104550684962853967232100, -950125098376374401853193400000),
      (1894506104550684962853967232100, 950125098376374401853193400000),
      (1826034150449235888667636679700, 2816035507792589132304605000000),
      (1691565193950025381893120790300, 4580167776572273863424194400000),
      (1495959888165767320815017305500, 6178762444026437484466717600000),
      (1246289712555338720524762821900, 7554044083550030338951011900000),
      (951585116824927848099251076000, 8656312023878317438804679000000),
      (622535239386478928628438369940, 9445750230732325760779884200000),
      (271524594117540948517805724560, 9894009349916499325961541700000)]
  | 17 => [(241483028685479319601100262880, -9905754753144173356754340200000),
      (554595293739872011294401653590, -9506755217687677612227169580000),
      (850361483171791808835353701910, -8802391537269859021229556940000),
      (1118838471934039710947883856260, -7815140038968014069252300560000),
      (1351363684685254732863199817000, -6576711592166907658503022170000),
      (1540457610768102880814315948000, -5126905370864769678862465690000),
      (1680041021564500445099706637900, -3512317634538763152971855200000),
      (1765627053669926463252709901100, -1784841814958478558506774900000),
      (1794464703562065254582656442600, 0),
      (1765627053669926463252709901100, 1784841814958478558506774900000),
      (1680041021564500445099706637900, 3512317634538763152971855200000),
      (1540457610768102880814315948000, 5126905370864769678862465700000),
      (1351363684685254732863199817000, 6576711592166907658503022200000),
      (1118838471934039710947883856260, 7815140038968014069252300600000),
      (850361483171791808835353701910, 8802391537269859021229556900000),
      (554595293739872011294401653590, 9506755217687677612227169600000),
      (241483028685479319601100262880, 9905754753144173356754340200000)]
  | 18 => [(216160135264833103133427102660, -9915651684209309467300160050000),
      (497145488949697964533349462030, -9558239495713977551811958930000),
      (764257302548890565291296776200, -8926024664975557392060605910000),
      (1009420441062871655628139849200, -8037049589725231156824174550000),
      (1225552067114784601845191268000, -6916870430603532078748910810000),
      (1406429146706506512047313037500, -5597708310739475346078715500000),
      (1546846751262652449254180038400, -4117511614628426460359317900000),
      (1642764837458327229860537764700, -2518862256915055095889728500000),
      (1691423829631435918406564701300, -847750130417353012422618500000),
      (1691423829631435918406564701300, 847750130417353012422618500000),
      (1642764837458327229860537764700, 2518862256915055095889728500000),
      (1546846751262652449254180038400, 4117511614628426460359317900000),
      (1406429146706506512047313037500, 5597708310739475346078715500000),
      (1225552067114784601845191268000, 6916870430603532078748910800000),
      (1009420441062871655628139849200, 8037049589725231156824174600000),
      (764257302548890565291296776200, 8926024664975557392060605900000),
      (497145488949697964533349462030, 9558239495713977551811958900000),
      (216160135264833103133427102660, 9915651684209309467300160000000)]
  | 19 => [(194617882297264770363120414640, -9924068438435844031890176700000),
      (448142267656996003328381574020, -9602081521348300308527788410000),
      (690445427376412265807082580060, -9031559036148179016426609290000),
      (914900216224499994644620941240, -8227146565371428249789224870000),
      (1115666455473339947160239016820, -7209661773352293786170958600000),
      (1287539625393362276755157848600, -6005453046616810234696381600000),
      (1426067021736066117757461094400, -4645707413759609457172671500000),
      (1527660420658596667788554009000, -3165640999636298319901173300000),
      (1589688433939543476499564394600, -1603586456402253758680961200000),
      (1610544498487836959791636253200, 0),
      (1589688433939543476499564394600, 1603586456402253758680961200000),
      (1527660420658596667788554009000, 3165640999636298319901173300000),
      (1426067021736066117757461094400, 4645707413759609457172671500000),
      (1287539625393362276755157848600, 6005453046616810234696381600000),
      (1115666455473339947160239016820, 7209661773352293786170958600000),
      (914900216224499994644620941240, 8227146565371428249789224900000),
      (690445427376412265807082580060, 9031559036148179016426609300000),
      (448142267656996003328381574020, 9602081521348300308527788400000),
      (194617882297264770363120414640, 9924068438435844031890176700000)]
  | 20 => [(176140071391521183118619623520, -9931285991850949247861223880000),
      (406014298003869413310399522750, -9639719272779137912676661310000),
      (626720483341090635695065351870, -9122344282513259058677524410000),
      (832767415767047487247581432200, -8391169718222188233945290600000),
      (1019301198172404350367501354800, -7463319064601507926143050700000),
      (1181945319615184173123773777100, -6360536807265150254528367000000),
      (1316886384491766268984944997500, -5108670019508270980043640500000),
      (1420961093183820513292983250700, -3737060887154195606725481800000),
      (1491729864726037467878287370000, -2277858511416450780804962000000),
      (1527533871307258506980843319500, -765265211334973337546404100000),
      (1527533871307258506980843319500, 765265211334973337546404100000),
      (1491729864726037467878287370000, 2277858511416450780804962000000),
      (1420961093183820513292983250700, 3737060887154195606725481800000),
      (1316886384491766268984944997500, 5108670019508270980043640500000),
      (1181945319615184173123773777100, 6360536807265150254528367000000),
      (1019301198172404350367501354800, 7463319064601507926143050700000),
      (832767415767047487247581432200, 8391169718222188233945290600000),
      (626720483341090635695065351870, 9122344282513259058677524400000),
      (406014298003869413310399522750, 9639719272779137912676661300000),
      (176140071391521183118619623520, 9931285991850949247861223900000)]
  | 21 => [(160172282577743333242246168580, -9937521706203895002602420400000),
      (369537897708524937999506682990, -9672268385663062943166222100000),
      (571344254268572082836358264720, -9200993341504008287901871300000),
      (761001136283793020170516533000, -8533633645833172836472506400000),
      (934444234560338615532897411140, -7684399634756779086158778500000),
      (1087972991671483776634745780700, -6671388041974123193059666700000),
      (1218314160537285341953671771300, -5516188358872198070590188000000),
      (1322689386333374617810525745000, -4243421202074387835736688900000),
      (1398873947910731547221334238700, -2880213168024010966007925200000),
      (1445244039899700590638271665500, -1455618541608950909370309800000),
      (1460811336496904271919851476800, 0),
      (1445244039899700590638271665500, 1455618541608950909370309800000),
      (1398873947910731547221334238700, 2880213168024010966007925200000),
      (1322689386333374617810525745000, 4243421202074387835736688900000),
      (1218314160537285341953671771300, 5516188358872198070590188000000),
      (1087972991671483776634745780700, 6671388041974123193059666700000),
      (934444234560338615532897411140, 7684399634756779086158778500000),
      (761001136283793020170516533000, 8533633645833172836472506400000),
      (571344254268572082836358264720, 9200993341504008287901871300000),
      (369537897708524937999506682990, 9672268385663062943166222100000),
      (160172282577743333242246168580, 9937521706203895002602420400000)]
  | 22 => [(146279952982722006849910980470, -9942945854823992920730314200000),
      (337749015848141547933022468660, -9700604978354287271239509900000),
      (522933351526832859403120512730, -9269567721871740005206929400000),
      (697964684245204880949614189300, -8658125777203001365364256400000),
      (859416062170677274144436813700, -7878168059792081620042779600000),
      (1004141444428809649320788378300, -6944872631866827800506898400000),
      (1129322960805392183934006074200, -5876404035069115929588769300000),
      (1232523768105124242855609861500, -4693558379867570264063307100000),
      (1311735047870623707329649925300, -3419358208920842251581474200000),
      (1365414983460151713525738312300, -2078604266882212854788465300000),
      (1392518728556319933754102483400, -697392733197222212138418000000),
      (1392518728556319933754102483400, 697392733197222212138418000000),
      (1365414983460151713525738312300, 2078604266882212854788465300000),
      (1311735047870623707329649925300, 3419358208920842251581474200000),
      (1232523768105124242855609861500, 4693558379867570264063307100000),
      (1129322960805392183934006074200, 5876404035069115929588769300000),
      (1004141444428809649320788378300, 6944872631866827800506898400000),
      (859416062170677274144436813700, 7878168059792081620042779600000),
      (697964684245204880949614189300, 8658125777203001365364256400000),
      (522933351526832859403120512730, 9269567721871740005206929400000),
      (337749015848141547933022468660, 9700604978354287271239509900000),
      (146279952982722006849910980470, 9942945854823992920730314200000)]
  | 23 => [(134118594871417720813094934590, -9947693349975521235239257200000),
      (309880058569794443106942196420, -9725424712181152319560240800000),
      (480376717310846685716410716320, -9329710868260161023491969900000),
      (642324214085258521271696151590, -8767523582704416673781568900000),
      (792814117767189549228925247420, -8048884016188398921511184100000),
      (929157660600351474770186173700, -7186613631319501944616244800000),
      (1048920914645414100740861850150, -6196098757636461563850973100000),
      (1149966402224113649416435129300, -5095014778460075496897930500000),
      (1230490843067295304675784006700, -3903010380302908314214888700000),
      (1289057221880821499785953394000, -2641356809703449305338695400000),
      (1324620394046966173716424647000, -1332568242984661109317426800000),
      (1336545721861061753514571105500, 0),
      (1324620394046966173716424647000, 1332568242984661109317426800000),
      (1289057221880821499785953394000, 2641356809703449305338695400000),
      (1230490843067295304675784006700, 3903010380302908314214888700000),
      (1149966402224113649416435129300, 5095014778460075496897930500000),
      (1048920914645414100740861850150, 6196098757636461563850973100000),
      (929157660600351474770186173700, 7186613631319501944616244800000),
      (792814117767189549228925247420, 8048884016188398921511184100000),
      (642324214085258521271696151590, 8767523582704416673781568900000),
      (480376717310846685716410716320, 9329710868260161023491969900000),
      (309880058569794443106942196420, 9725424712181152319560240800000),
      (134118594871417720813094934590, 9947693349975521235239257200000)]
  | 24 => [(123412297999871995468056670700, -9951872199970213601799974100000),
      (285313886289336631813078159520, -9747285559713094981983919900000),
      (442774388174198061686027482110, -9382745520027327585236490000000),
      (592985849154367807463677585000, -8864155270044010342131543400000),
      (733464814110803057340336152500, -8200019859739029219539498700000),
      (861901615319532759171852029800, -7401241915785543642438281000000),
      (976186521041138882698806644600, -6480936519369755692524957900000),
      (1074442701159656347825773424500, -5454214713888395356583756200000),
      (1155056680537256013533444839100, -4337935076260451384870842300000),
      (1216704729278033912044631534800, -3150426796961633743867932900000),
      (1258374563468282961213753825100, -1911188674736163091586398200000),
      (1279381953467521569740561652200, -640568928626056260850430800000),
      (1279381953467521569740561652200, 640568928626056260850430800000),
      (1258374563468282961213753825100, 1911188674736163091586398200000),
      (1216704729278033912044631534800, 3150426796961633743867932900000),
      (1155056680537256013533444839100, 4337935076260451384870842300000),
      (1074442701159656347825773424500, 5454214713888395356583756200000),
      (976186521041138882698806644600, 6480936519369755692524957900000),
      (861901615319532759171852029800, 7401241915785543642438281000000),
      (733464814110803057340336152500, 8200019859739029219539498700000),
      (592985849154367807463677585000, 8864155270044010342131543400000),
      (442774388174198061686027482110, 9382745520027327585236490000000),
      (285313886289336631813078159520, 9747285559713094981983919900000),
      (123412297999871995468056670700, 9951872199970213601799974100000)]
  | 25 => [(113937985010262879479029641132, -9955569697904980979087849500000),
      (263549866150321372619018152950, -9766639214595175114983153900000),
      (409391567013063126556234877120, -9429745712289743394140111700000),
      (549046959758351919259368915410, -8949919978782753688510420100000),
      (680383338123569172071871856570, -8334426287608340014210211100000),
      (801407003350010180132349596690, -7592592630373576305772828700000),
      (910282619829636498114972207030, -6735663684734683644851206300000),
      (1005359490670506442022068903930, -5776629302412229677236898400000),
      (1085196244742636531160939570500, -4730027314457149605221821200000),
      (1148582591457116483393255458700, -3611723058093878377358217300000),
      (1194557635357847722281781265100, -2438668837209884320451903600000),
      (1222424429903100416889595189500, -1228646926107103963873598200000),
      (1231760537267154512039028730800, 0),
      (1222424429903100416889595189500, 1228646926107103963873598200000),
      (1194557635357847722281781265100, 2438668837209884320451903600000),
      (1148582591457116483393255458700, 3611723058093878377358217300000),
      (1085196244742636531160939570500, 4730027314457149605221821200000),
      (1005359490670506442022068903930, 5776629302412229677236898400000),
      (910282619829636498114972207030, 6735663684734683644851206300000),
      (801407003350010180132349596690, 7592592630373576305772828700000),
      (680383338123569172071871856570, 8334426287608340014210211100000),
      (549046959758351919259368915410, 8949919978782753688510420100000),
      (409391567013063126556234877120, 9429745712289743394140111700000),
      (263549866150321372619018152950, 9766639214595175114983153900000),
      (113937985010262879479029641132, 9955569697904980979087849500000)]
  | 26 => [(105513726173430071556511876850, -9958857011456169290032169600000),
      (244178510926319087896158275200, -9783854459564709911005803500000),
      (379623832943627639503031412490, -9471590666617142501359152800000),
      (509758252971478119983199007240, -9026378619843070742176656000000),
      (632740463295748355394536899070, -8454459427884980187975070600000),
      (746841497656597458870757961000, -7763859488206788561929672500000),
      (850458943134852392104477650800, -6964272604199572648638139100000),
      (942138003559141484636648830700, -6066922930176180632319787500000),
      (1020591610944254232384140702500, -5084407148245057176957030600000),
      (1084718405285765906565794267300, -4030517551234863064810773800000),
      (1133618165463196665494407184400, -2920048394859568951428353800000),
      (1166604434852965820446625075400, -1768588203568901839690577500000),
      (1183214152792622765163710857000, -592300934293132070937185800000),
      (1183214152792622765163710857000, 592300934293132070937185800000),
      (1166604434852965820446625075400, 1768588203568901839690577500000),
      (1133618165463196665494407184400, 2920048394859568951428353800000),
      (1084718405285765906565794267300, 4030517551234863064810773800000),
      (1020591610944254232384140702500, 5084407148245057176957030600000),
      (942138003559141484636648830700, 6066922930176180632319787500000),
      (850458943134852392104477650800, 6964272604199572648638139100000),
      (746841497656597458870757961000, 7763859488206788561929672500000),
      (632740463295748355394536899070, 8454459427884980187975070600000),
      (509758252971478119983199007240, 9026378619843070742176656000000),
      (379623832943627639503031412490, 9471590666617142501359152800000),
      (244178510926319087896158275200, 9783854459564709911005803500000),
      (105513726173430071556511876850, 9958857011456169290032169600000)]
  | 27 => [(97989960512943602611500550912, -9961792628889885669388872100000),
      (226862315961806231960342064470, -9799234759615012228558733600000),
      (352970537574197110225782893050, -9509005578147050068519080300000),
      (474494125206150627040967101140, -9094823206774911043006450200000),
      (589835368598335991103008337200, -8562079080182944903027372200000),
      (697488237662455929843228883570, -7917716390705082271443973400000),
      (796048677730577712630749590100, -7170134737394236992948162100000),
      (884231585437569501943228028540, -6329079719464951409277346400000),
      (960887273700285075656526465580, -5405515645794568949003009400000),
      (1025016378177457986712477115330, -4411482517500268805859741600000),
      (1075782857885331872121629844270, -3359939036385088997303190300000),
      (1112524883568451926721630960430, -2264593654395368588572391100000),
      (1134763461089651486203699480920, -1139725856095299669328949800000),
      (1142208673789569890450457369000, 0),
      (1134763461089651486203699480920, 1139725856095299669328949800000),
      (1112524883568451926721630960430, 2264593654395368588572391100000),
      (1075782857885331872121629844270, 3359939036385088997303190300000),
      (1025016378177457986712477115330, 4411482517500268805859741600000),
      (960887273700285075656526465580, 5405515645794568949003009400000),
      (884231585437569501943228028540, 6329079719464951409277346400000),
      (796048677730577712630749590100, 7170134737394236992948162100000),
      (697488237662455929843228883570, 7917716390705082271443973400000),
      (589835368598335991103008337200, 8562079080182944903027372200000),
      (474494125206150627040967101140, 9094823206774911043006450200000),
      (352970537574197110225782893050, 9509005578147050068519080300000),
      (226862315961806231960342064470, 9799234759615012228558733600000),
      (97989960512943602611500550912, 9961792628889885669388872100000)]
  | 28 => [(91242825930945177388161539230, -9964424975739544499504363900000),
      (211321125927712597515003809930, -9813031653708727536945599500000),
      (329014277823043799776308191710, -9542592806289381972541018400000),
      (442729347590042278395878776530, -9156330263921320738696894200000),
      (551073456757167454314829182270, -8658925225743950489422545700000),
      (652729239669995957933975667800, -8056413709171791714478859600000),
      (746462142345687790239318871700, -7356108780136317720281445100000),
      (831134172289012183903964982400, -6566510940388649612198981800000),
      (905717443930328409421860313400, -5697204718114017193080032800000),
      (969306579979299158504890061000, -4758742249551182610344118500000),
      (1021129675780607698142166385100, -3762515160890787102213572100000),
      (1060557659228464179104164370000, -2720616276351780776768263600000),
      (1087111922582941352535715193000, -1645692821333807712814717800000),
      (1100470130164751962823762656000, -550792898840342704265165300000),
      (1100470130164751962823762656000, 550792898840342704265165300000),
      (1087111922582941352535715193000, 1645692821333807712814717800000),
      (1060557659228464179104164370000, 2720616276351780776768263600000),
      (1021129675780607698142166385100, 3762515160890787102213572100000),
      (969306579979299158504890061000, 4758742249551182610344118500000),
      (905717443930328409421860313400, 5697204718114017193080032800000),
      (831134172289012183903964982400, 6566510940388649612198981800000),
      (746462142345687790239318871700, 7356108780136317720281445100000),
      (652729239669995957933975667800, 8056413709171791714478859600000),
      (551073456757167454314829182270, 8658925225743950489422545700000),
      (442729347590042278395878776530, 9156330263921320738696894200000),
      (329014277823043799776308191710, 9542592806289381972541018400000),
      (211321125927712597515003809930, 9813031653708727536945599500000),
      (91242825930945177388161539230, 9964424975739544499504363900000)]
  | 29 => [(85169038787464096542638133022, -9966794422605965861631915300000),
      (197320850561227059838598016400, -9825455052614131748709260200000),
      (307404922020936226444085253750, -9572855957780877257982080400000),
      (414020625186828361048300101140, -9211802329530587850937534400000),
      (515948269024979239125943811800, -8746378049201027904177934200000),
      (612030906570791385421098480240, -8181854876152524449895722100000),
      (701179332550512785695814869490, -7524628517344771339126100800000),
      (782383271357637838281448886600, -6782145376026865151561850100000),
      (854722573661725275453448492970, -5962817971382278203795862100000),
      (917377571392587633479664110770, -5075929551242276421026279200000),
      (969638340944086063019000748830, -4131528881740086638907065900000),
      (1010912737599149661218205469070, -3140316378676399349481959200000),
      (1040733100777293739133284712850, -2113522861660010745063757300000),
      (1058761550973209414065913278520, -1062782301326792301709823900000),
      (1064793817183142442465111269100, 0),
      (1058761550973209414065913278520, 1062782301326792301709823900000),
      (1040733100777293739133284712850, 2113522861660010745063757300000),
      (1010912737599149661218205469070, 3140316378676399349481959200000),
      (969638340944086063019000748830, 4131528881740086638907065900000),
      (917377571392587633479664110770, 5075929551242276421026279200000),
      (854722573661725275453448492970, 5962817971382278203795862100000),
      (782383271357637838281448886600, 6782145376026865151561850100000),
      (701179332550512785695814869490, 7524628517344771339126100800000),
      (612030906570791385421098480240, 8181854876152524449895722100000),
      (515948269024979239125943811800, 8746378049201027904177934200000),
      (414020625186828361048300101140, 9211802329530587850937534400000),
      (307404922020936226444085253750, 9572855957780877257982080400000),
      (197320850561227059838598016400, 9825455052614131748709260200000),
      (85169038787464096542638133022, 9966794422605965861631915300000)]
  | 30 => [(79681924961666056154658834750, -9968934840746495402716300500000),
      (184664683110909591423021319120, -9836681232797472099700325800000),
      (287847078833233693497191796110, -9600218649683075122168710300000),
      (387991925696270495968019364460, -9262000474292743258793242800000),
      (484026728305940529029381404230, -8825605357920526815431164600000),
      (574931562176190664817216894020, -8295657623827683974428981200000),
      (659742298821804951281285151200, -7677774321048261949179773400000),
      (737559747377052062682438500200, -6978504947933157969322923900000),
      (807558952294202153546949384600, -6205261829892428611404775600000),
      (868997872010829798023875307200, -5366241481420198992641697900000),
      (921225222377861287176327070900, -4470337695380891767806099000000),
      (963687371746442596394686263500, -3527047255308781134710372100000),
      (995934205867952670627802821000, -2546369261678898464398051300000),
      (1017623897484055045964289521700, -1538699136085835469637946700000),
      (1028526528935588403412856367100, -514718425553176958330252100000),
      (1028526528935588403412856367100, 514718425553176958330252100000),
      (1017623897484055045964289521700, 1538699136085835469637946700000),
      (995934205867952670627802821000, 2546369261678898464398051300000),
      (963687371746442596394686263500, 3527047255308781134710372100000),
      (921225222377861287176327070900, 4470337695380891767806099000000),
      (868997872010829798023875307200, 5366241481420198992641697900000),
      (807558952294202153546949384600, 6205261829892428611404775600000),
      (737559747377052062682438500200, 6978504947933157969322923900000),
      (659742298821804951281285151200, 7677774321048261949179773400000),
      (574931562176190664817216894020, 8295657623827683974428981200000),
      (484026728305940529029381404230, 8825605357920526815431164600000),
      (387991925696270495968019364460, 9262000474292743258793242800000),
      (287847078833233693497191796110, 9600218649683075122168710300000),
      (184664683110909591423021319120, 9836681232797472099700325800000),
      (79681924961666056154658834750, 9968934840746495402716300500000)]
  | 31 => [(74708315792487758586968750322, -9970874818194770740556265500000),
      (173186207903105824631579960870, -9846859096651524840024651700000),
      (270090191849794218006087080920, -9625039250929496617890524000000),
      (364322739123854640243920104680, -9307569978966481649569457600000),
      (454937075272011029023158578950, -8897600299482710433741920100000),
      (541030824249168537116662590870, -8399203201462673400869045400000),
      (621747865610284269103435436870, -7817331484166249404063600200000),
      (696285832354103661677561262550, -7157767845868532839059708700000),
      (763903865987766164263576749010, -6427067229242603461844182000000),
      (823929917615892639038233674320, -5632491614071492627209449200000),
      (875767406084778761261980696950, -4781937820449024804405940400000),
      (918901138936414782153628716070, -3883859016082329430613514600000),
      (952902429123195128072041974880, -2947180699817016166179039000000),
      (977433353863287250934740109790, -1981211993355706287724130000000),
      (992250112266723078748755144290, -995553121523415203251747900000),
      (997205447934264514275338337300, 0),
      (992250112266723078748755144290, 995553121523415203251747900000),
      (977433353863287250934740109790, 1981211993355706287724130000000),
      (952902429123195128072041974880, 2947180699817016166179039000000),
      (918901138936414782153628716070, 3883859016082329430613514600000),
      (875767406084778761261980696950, 4781937820449024804405940400000),
      (823929917615892639038233674320, 5632491614071492627209449200000),
      (763903865987766164263576749010, 6427067229242603461844182000000),
      (696285832354103661677561262550, 7157767845868532839059708700000),
      (621747865610284269103435436870, 7817331484166249404063600200000),
      (541030824249168537116662590870, 8399203201462673400869045400000),
      (454937075272011029023158578950, 8897600299482710433741920100000),
      (364322739123854640243920104680, 9307569978966481649569457600000),
      (270090191849794218006087080920, 9625039250929496617890524000000),
      (173186207903105824631579960870, 9846859096651524840024651700000),
      (74708315792487758586968750322, 9970874818194770740556265500000)]
  | 32 => [(70186100094700966004070637390, -9972638618494815635449811300000),
      (162743947309056706051705622060, -9856115115452683354001750400000),
      (253920653092620594557525897890, -9647622555875064307738119300000),
      (342738629130214331026877322520, -9349060759377396891709191300000),
      (428358980222266806568786466060, -8963211557660521239653072400000),
      (509980592623761761961632446900, -8493676137325699701336930000000),
      (586840934785355471452836373000, -7944837959679424069630973000000),
      (658222227763618468376500637100, -7321821187402896803874266700000),
      (723457941088485062253993564800, -6630442669302152009751151700000),
      (781938957870703064717409188300, -5877157572407623290407454800000),
      (833119242269467552221990746000, -5068999089322293900237474700000),
      (876520930044038111427714627500, -4213512761306353453641194400000),
      (911738786957638847128685771100, -3318686022821276497799168100000),
      (938443990808045656391802376700, -2392873622521370745446032100000),
      (956387200792748594190820022000, -1444719615827964934851863700000),
      (965400885147278005667648300600, -483076656877383162348125700000),
      (965400885147278005667648300600, 483076656877383162348125700000),
      (956387200792748594190820022000, 1444719615827964934851863700000),
      (938443990808045656391802376700, 2392873622521370745446032100000),
      (911738786957638847128685771100, 3318686022821276497799168100000),
      (876520930044038111427714627500, 4213512761306353453641194400000),
      (833119242269467552221990746000, 5068999089322293900237474700000),
      (781938957870703064717409188300, 5877157572407623290407454800000),
      (723457941088485062253993564800, 6630442669302152009751151700000),
      (658222227763618468376500637100, 7321821187402896803874266700000),
      (586840934785355471452836373000, 7944837959679424069630973000000),
      (509980592623761761961632446900, 8493676137325699701336930000000),
      (428358980222266806568786466060, 8963211557660521239653072400000),
      (342738629130214331026877322520, 9349060759377396891709191300000),
      (253920653092620594557525897890, 9647622555875064307738119300000),
      (162743947309056706051705622060, 9856115115452683354001750400000),
      (70186100094700966004070637390, 9972638618494815635449811300000)]
  | 33 => [(66062278475873780586492352085, -9974246942464552172661680200000),
      (153217015129346761279457685340, -9864557262306424881103757000000),
      (239155481017494803505332575290, -9668229096899927689283777100000),
      (323003586323289532815614472500, -9386943726111683503558351200000),
      (404015413316695915634097905270, -9023167677434335830405313300000),
      (481477428187116956701468801380, -8580096526765040646430614800000),
      (554708466316635612849444954390, -8061623562741665897962008700000),
      (623064825303174800316277257710, -7472304964495621578590551200000),
      (685945728186567128059550730150, -6817319599697427862682159500000),
      (742798548439541493424721759190, -6102423458363790273072875100000),
      (793123647948867383639083849420, -5333899047863476435488942600000),
      (836478760670387076139280145180, -4518500172724506957259932800000),
      (872482876188443376072816709450, -3663392577480733410702206200000),
      (900819586606385772397437055000, -2776090971524970294032480700000),
      (921239866433168462132409777170, -1864392988279915723357987600000),
      (933564260655961161609991262740, -936310658547333856707429200000),
      (937684461602099965673045415500, 0),
      (933564260655961161609991262740, 936310658547333856707429200000),
      (921239866433168462132409777170, 1864392988279915723357987600000),
      (900819586606385772397437055000, 2776090971524970294032480700000),
      (872482876188443376072816709450, 3663392577480733410702206200000),
      (836478760670387076139280145180, 4518500172724506957259932800000),
      (793123647948867383639083849420, 5333899047863476435488942600000),
      (742798548439541493424721759190, 6102423458363790273072875100000),
      (685945728186567128059550730150, 6817319599697427862682159500000),
      (623064825303174800316277257710, 7472304964495621578590551200000),
      (554708466316635612849444954390, 8061623562741665897962008700000),
      (481477428187116956701468801380, 8580096526765040646430614800000),
      (404015413316695915634097905270, 9023167677434335830405313300000),
      (323003586323289532815614472500, 9386943726111683503558351200000),
      (239155481017494803505332575290, 9668229096899927689283777100000),
      (153217015129346761279457685340, 9864557262306424881103757000000),
      (66062278475873780586492352085, 9974246942464552172661680200000)]
  | _ => []

/-- `Dunavant_2D::PermutationData`, lines 126-352. -/
def permData : Nat → List Nat
  | 0 => [1]
  | 1 => [1]
  | 2 => [3]
  | 3 => [1, 3]
  | 4 => [3, 3]
  | 5 => [1, 3, 3]
  | 6 => [3, 3, 6]
  | 7 => [1, 3, 3, 6]
  | 8 => [1, 3, 3, 3, 6]
  | 9 => [1, 3, 3, 3, 3, 6]
  | 10 => [1, 3, 3, 6, 6, 6]
  | 11 => [3, 3, 3, 3, 3, 6, 6]
  | 12 => [3, 3, 3, 3, 3, 6, 6, 6]
  | 13 => [1, 3, 3, 3, 3, 3, 3, 6, 6, 6]
  | 14 => [3, 3, 3, 3, 3, 3, 6, 6, 6, 6]
  | 15 => [3, 3, 3, 3, 3, 3, 6, 6, 6, 6, 6]
  | 16 => [1, 3, 3, 3, 3, 3, 3, 3, 6, 6, 6, 6, 6]
  | 17 => [1, 3, 3, 3, 3, 3, 3, 3, 3, 6, 6, 6, 6, 6, 6]
  | 18 => [1, 3, 3, 3, 3, 3, 3, 3, 3, 3, 6, 6, 6, 6, 6, 6, 6]
  | 19 => [1, 3, 3, 3, 3, 3, 3, 3, 3, 6, 6, 6, 6, 6, 6, 6, 6]
  | 20 => [1, 3, 3, 3, 3, 3, 3, 3, 3, 3, 3, 6, 6, 6, 6, 6, 6, 6, 6]
  | _ => []

/-- `Dunavant_2D::GPData`, lines 354-898: weight and the three barycentric coordinates of an orbit. -/
def orbitData : Nat → List (Int × Int × Int × Int)
  | 0 => [(1000000000000000, 333333333333333, 333333333333333, 333333333333333)]
  | 1 => [(1000000000000000, 333333333333333, 333333333333333, 333333333333333)]
  | 2 => [(333333333333333, 666666666666667, 166666666666667, 166666666666667)]
  | 3 => [(-562500000000000, 333333333333333, 333333333333333, 333333333333333),
      (520833333333333, 600000000000000, 200000000000000, 200000000000000)]
  | 4 => [(223381589678011, 108103018168070, 445948490915965, 445948490915965),
      (109951743655322, 816847572980459, 91576213509771, 91576213509771)]
  | 5 => [(225000000000000, 333333333333333, 333333333333333, 333333333333333),
      (132394152788506, 59715871789770, 470142064105115, 470142064105115),
      (125939180544827, 797426985353087, 101286507323456, 101286507323456)]
  | 6 => [(116786275726379, 501426509658179, 249286745170910, 249286745170910),
      (50844906370207, 873821971016996, 63089014491502, 63089014491502),
      (82851075618374, 53145049844817, 310352451033784, 636502499121399)]
  | 7 => [(-149570044467682, 333333333333333, 333333333333333, 333333333333333),
      (175615257433208, 479308067841920, 260345966079040, 260345966079040),
      (53347235608838, 869739794195568, 65130102902216, 65130102902216),
      (77113760890257, 48690315425316, 312865496004874, 638444188569810)]
  | 8 => [(144315607677787, 333333333333333, 333333333333333, 333333333333333),
      (95091634267285, 81414823414554, 459292588292723, 459292588292723),
      (103217370534718, 658861384496480, 170569307751760, 170569307751760),
      (32458497623198, 898905543365938, 50547228317031, 50547228317031),
      (27230314174435, 8394777409958, 263112829634638, 728492392955404)]
  | 9 => [(97135796282799, 333333333333333, 333333333333333, 333333333333333),
      (31334700227139, 20634961602525, 489682519198738, 489682519198738),
      (77827541004774, 125820817014127, 437089591492937, 437089591492937),
      (79647738927210, 623592928761935, 188203535619033, 188203535619033),
      (25577675658698, 910540973211095, 44729513394453, 44729513394453),
      (43283539377289, 36838412054736, 221962989160766, 741198598784498)]
  | 10 => [(90817990382754, 333333333333333, 333333333333333, 333333333333333),
      (36725957756467, 28844733232685, 485577633383657, 485577633383657),
      (45321059435528, 781036849029926, 109481575485037, 109481575485037),
      (72757916845420, 141707219414880, 307939838764121, 550352941820999),
      (28327242531057, 25003534762686, 246672560639903, 728323904597411),
      (9421666963733, 9540815400299, 66803251012200, 923655933587500)]
  | 11 => [(927006328961, -69222096541517, 534611048270758, 534611048270758),
      (77149534914813, 202061394068290, 398969302965855, 398969302965855),
      (59322977380774, 593380199137435, 203309900431282, 203309900431282),
      (36184540503418, 761298175434837, 119350912282581, 119350912282581),
      (13659731002678, 935270103777448, 32364948111276, 32364948111276),
      (52337111962204, 50178138310495, 356620648261293, 593201213428213),
      (20707659639141, 21022016536166, 171488980304042, 807489003159792)]
  | 12 => [(25731066440455, 23565220452390, 488217389773805, 488217389773805),
      (43692544538038, 120551215411079, 439724392294460, 439724392294460),
      (62858224217885, 457579229975768, 271210385012116, 271210385012116),
      (34796112930709, 744847708916828, 127576145541586, 127576145541586),
      (6166261051559, 957365299093579, 21317350453210, 21317350453210),
      (40371557766381, 115343494534698, 275713269685514, 608943235779788),
      (22356773202303, 22838332222257, 281325580989940, 695836086787803),
      (17316231108659, 25734050548330, 116251915907597, 858014033544073)]
  | 13 => [(52520923400802, 333333333333333, 333333333333333, 333333333333333),
      (11280145209330, 9903630120591, 495048184939705, 495048184939705),
      (31423518362454, 62566729780852, 468716635109574, 468716635109574),
      (47072502504194, 170957326397447, 414521336801277, 414521336801277),
      (47363586536355, 541200855914337, 229399572042831, 229399572042831),
      (31167529045794, 771151009607340, 114424495196330, 114424495196330),
      (7975771465074, 950377217273082, 24811391363459, 24811391363459),
      (36848402728732, 94853828379579, 268794997058761, 636351174561660),
      (17401463303822, 18100773278807, 291730066734288, 690169159986905),
      (15521786839045, 22233076674090, 126357385491669, 851409537834241)]
  | 14 => [(21883581369429, 22072179275643, 488963910362179, 488963910362179),
      (32788353544125, 164710561319092, 417644719340454, 417644719340454),
      (51774104507292, 453044943382323, 273477528308839, 273477528308839),
      (42162588736993, 645588935174913, 177205532412543, 177205532412543),
      (14433699669777, 876400233818255, 61799883090873, 61799883090873),
      (4923403602400, 961218077502598, 19390961248701, 19390961248701),
      (24665753212564, 57124757403648, 172266687821356, 770608554774996),
      (38571510787061, 92916249356972, 336861459796345, 570222290846683),
      (14436308113534, 14646950055654, 298372882136258, 686980167808088),
      (5010228838501, 1268330932872, 118974497696957, 879757171370171)]
  | 15 => [(1916875642849, -13945833716486, 506972916858243, 506972916858243),
      (44249027271145, 137187291433955, 431406354283023, 431406354283023),
      (51186548718852, 444612710305711, 277693644847144, 277693644847144),
      (23687735870688, 747070217917492, 126464891041254, 126464891041254),
      (13289775690021, 858383228050628, 70808385974686, 70808385974686),
      (4748916608192, 962069659517853, 18965170241073, 18965170241073),
      (38550072599593, 133734161966621, 261311371140087, 604954466893291),
      (27215814320624, 36366677396917, 388046767090269, 575586555512814),
      (2182077366797, -10174883126571, 285712220049916, 724462663076655),
      (21505319847731, 36843869875878, 215599664072284, 747556466051838),
      (7673942631049, 12459809331199, 103575616576386, 883964574092416)]
  | 16 => [(46875697427642, 333333333333333, 333333333333333, 333333333333333),
      (6405878578585, 5238916103123, 497380541948438, 497380541948438),
      (41710296739387, 173061122901295, 413469438549352, 413469438549352),
      (26891484250064, 59082801866017, 470458599066991, 470458599066991),
      (42132522761650, 518892500060958, 240553749969521, 240553749969521),
      (30000266842773, 704068411554854, 147965794222573, 147965794222573),
      (14200098925024, 849069624685052, 75465187657474, 75465187657474),
      (3582462351273, 966807194753950, 16596402623025, 16596402623025),
      (32773147460627, 103575692245252, 296555596579887, 599868711174861),
      (15298306248441, 20083411655416, 337723063403079, 642193524941505),
      (2386244192839, -4341002614139, 204748281642812, 799592720971327),
      (19084792755899, 41941786468010, 189358492130623, 768699721401368),
      (6850054546542, 14317320230681, 85283615682657, 900399064086661)]
  | 17 => [(33437199290803, 333333333333333, 333333333333333, 333333333333333),
      (5093415440507, 5658918886452, 497170540556774, 497170540556774),
      (14670864527638, 35647354750751, 482176322624625, 482176322624625),
      (24350878353672, 99520061958437, 450239969020782, 450239969020782),
      (31107550868969, 199467521245206, 400266239377397, 400266239377397),
      (31257111218620, 495717464058095, 252141267970953, 252141267970953),
      (24815654339665, 675905990683077, 162047004658461, 162047004658461),
      (14056073070557, 848248235478508, 75875882260746, 75875882260746),
      (3194676173779, 968690546064356, 15654726967822, 15654726967822),
      (8119655318993, 10186928826919, 334319867363658, 655493203809423),
      (26805742283163, 135440871671036, 292221537796944, 572337590532020),
      (18459993210822, 54423924290583, 319574885423190, 626001190286228),
      (8476868534328, 12868560833637, 190704224192292, 796427214974071),
      (18292796770025, 67165782413524, 180483211648746, 752351005937729),
      (6665632004165, 14663182224828, 80711313679564, 904625504095608)]
  | 18 => [(30809939937647, 333333333333333, 333333333333333, 333333333333333),
      (9072436679404, 13310382738157, 493344808630921, 493344808630921),
      (18761316939594, 61578811516086, 469210594241957, 469210594241957),
      (19441097985477, 127437208225989, 436281395887006, 436281395887006),
      (27753948610810, 210307658653168, 394846170673416, 394846170673416),
      (32256225351457, 500410862393686, 249794568803157, 249794568803157),
      (25074032616922, 677135612512315, 161432193743843, 161432193743843),
      (15271927971832, 846803545029257, 76598227485371, 76598227485371),
      (6793922022963, 951495121293100, 24252439353450, 24252439353450),
      (-2223098729920, 913707265566071, 43146367216965, 43146367216965),
      (6331914076406, 8430536202420, 358911494940944, 632657968856636),
      (27257538049138, 131186551737188, 294402476751957, 574410971510855),
      (17676785649465, 50203151565675, 325017801641814, 624779046792512),
      (18379484638070, 66329263810916, 184737559666046, 748933176523037),
      (8104732808192, 11996194566236, 218796800013321, 769207005420443),
      (7634129070725, 14858100590125, 101179597136408, 883962302273467),
      (46187660794, -35222015287949, 20874755282586, 1014347260005360)]
  | 19 => [(32906331388919, 333333333333333, 333333333333333, 333333333333333),
      (10330731891272, 20780025853987, 489609987073006, 489609987073006),
      (22387247263016, 90926214604215, 454536892697893, 454536892697893),
      (30266125869468, 197166638701138, 401416680649431, 401416680649431),
      (30490967802198, 488896691193805, 255551654403098, 255551654403098),
      (24159212741641, 645844115695741, 177077942152130, 177077942152130),
      (16050803586801, 779877893544096, 110061053227952, 110061053227952),
      (8084580261784, 888942751496321, 55528624251840, 55528624251840),
      (2079362027485, 974756272445543, 12621863777229, 12621863777229),
      (3884876904981, 3611417848412, 395754787356943, 600633794794645),
      (25574160612022, 134466754530780, 307929983880436, 557603261588784),
      (8880903573338, 14446025776115, 264566948406520, 720987025817365),
      (16124546761731, 46933578838178, 358539352205951, 594527068955871),
      (2491941817491, 2861120350567, 157807405968595, 839331473680839),
      (18242840118951, 223861424097916, 75050596975911, 701087978926173),
      (10258563736199, 34647074816760, 142421601113383, 822931324069857),
      (3799928855302, 10161119296278, 65494628082938, 924344252620784)]
  | 20 => [(33057055541624, 333333333333333, 333333333333333, 333333333333333),
      (867019185663, -1900928704400, 500950464352200, 500950464352200),
      (11660052716448, 23574084130543, 488212957934729, 488212957934729),
      (22876936356421, 89726636099435, 455136681950283, 455136681950283),
      (30448982673938, 196007481363421, 401996259318289, 401996259318289),
      (30624891725355, 488214180481157, 255892909759421, 255892909759421),
      (24368057676800, 647023488009788, 176488255995106, 176488255995106),
      (15997432032024, 791658289326483, 104170855336758, 104170855336758),
      (7698301815602, 893862072318140, 53068963840930, 53068963840930),
      (-632060497488, 916762569607942, 41618715196029, 41618715196029),
      (1751134301193, 976836157186356, 11581921406822, 11581921406822),
      (16465839189576, 48741583664839, 344855770229001, 606402646106160),
      (4839033540485, 6314115948605, 377843269594854, 615842614456541),
      (25804906534650, 134316520547348, 306635479062357, 559048000390295),
      (8471091054441, 13973893962392, 249419362774742, 736606743262866),
      (18354914106280, 75549132909764, 212775724802802, 711675142287434),
      (704404677908, -8368153208227, 146965436053239, 861402717154987),
      (10112684927462, 26686063258714, 137726978828923, 835586957912363),
      (3573909385950, 10547719294141, 59696109149007, 929756171556853)]
  | _ => []

end Verif.Quadrature
