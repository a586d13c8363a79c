import Mathlib.Data.Rat.Defs
/-
GENERATED by tools/gen_tables.py from the literals of nosnoc/rk_utils.py:49-1052
(`generate_butcher_tableu`).  The decimal literals are kept exactly, as rationals.
-/
namespace Nosnoc

/-- A Butcher tableau as returned by `generate_butcher_tableu`. -/
structure Tableau where
  A : List (List ℚ)
  b : List ℚ
  c : List ℚ
  order : Nat

/-- nosnoc/rk_utils.py, RADAU_IIA branch `n_s == 1` (starting at line 52). -/
def radau1 : Tableau where
  A := [[1]]
  b := [1]
  c := [1]
  order := 2 * 1 - 1

/-- nosnoc/rk_utils.py, RADAU_IIA branch `n_s == 2` (starting at line 56). -/
def radau2 : Tableau where
  A := [[(2083333333333333/5000000000000000), (-4166666666666667/50000000000000000)],
     [(3/4), (1/4)]]
  b := [(3/4), (1/4)]
  c := [(1666666666666667/5000000000000000), 1]
  order := 2 * 2 - 1

/-- nosnoc/rk_utils.py, RADAU_IIA branch `n_s == 3` (starting at line 60). -/
def radau3 : Tableau where
  A := [[(9840773861183/50000000000000), (-32767712925099/500000000000000), (1188548717411/50000000000000)],
     [(394424314739087/1000000000000000), (73018352916307/250000000000000), (-20774376062999/500000000000000)],
     [(376403062700467/1000000000000000), (512485826188421/1000000000000000), (11111111111111/100000000000000)]]
  b := [(376403062700467/1000000000000000), (512485826188421/1000000000000000), (11111111111111/100000000000000)]
  c := [(77525512860841/500000000000000), (322474487139159/500000000000000), 1]
  order := 2 * 3 - 1

/-- nosnoc/rk_utils.py, RADAU_IIA branch `n_s == 4` (starting at line 85). -/
def radau4 : Tableau where
  A := [[(112999479323157/1000000000000000), (-20154610361761/500000000000000), (25802377420337/1000000000000000), (-4952338253633/500000000000000)],
     [(1171919978737/5000000000000), (103446286967679/500000000000000), (-2392856402427/50000000000000), (4011855701629/250000000000000)],
     [(216681784623251/1000000000000000), (101530815966843/250000000000000), (23629564771257/125000000000000), (-24182104899833/1000000000000000)],
     [(220462211176769/1000000000000000), (388193468843169/1000000000000000), (328844319980059/1000000000000000), (1/16)]]
  b := [(220462211176769/1000000000000000), (388193468843169/1000000000000000), (328844319980059/1000000000000000), (1/16)]
  c := [(692093433693/7812500000000), (81893372888147/200000000000000), (787659461760847/1000000000000000), 1]
  order := 2 * 4 - 1

/-- nosnoc/rk_utils.py, RADAU_IIA branch `n_s == 5` (starting at line 119). -/
def radau5 : Tableau where
  A := [[(4562429019869/62500000000000), (-13367665553973/500000000000000), (3735385952797/200000000000000), (-12879106093307/1000000000000000), (2521419616941/500000000000000)],
     [(153775231479183/1000000000000000), (36553716961873/250000000000000), (-36444568905127/1000000000000000), (2654132889913/125000000000000), (-7935579902729/1000000000000000)],
     [(14006304568481/100000000000000), (74741782372821/250000000000000), (167585070135249/1000000000000000), (-16984550843309/500000000000000), (42751127907/3906250000000)],
     [(28978861621907/200000000000000), (276500068760161/1000000000000000), (325797922910417/1000000000000000), (32189188313727/250000000000000), (-7854458689403/500000000000000)],
     [(5748542431649/40000000000000), (281356015149471/1000000000000000), (155913261487867/500000000000000), (223103901083569/1000000000000000), (39999999999999/1000000000000000)]]
  b := [(5748542431649/40000000000000), (281356015149471/1000000000000000), (155913261487867/500000000000000), (223103901083569/1000000000000000), (39999999999999/1000000000000000)]
  c := [(28552098057259/500000000000000), (69210753409531/250000000000000), (583590432368917/1000000000000000), (860240135656219/1000000000000000), 1]
  order := 2 * 5 - 1

/-- nosnoc/rk_utils.py, RADAU_IIA branch `n_s == 6` (starting at line 169). -/
def radau6 : Tableau where
  A := [[(50950010994641/1000000000000000), (-4726826638573/250000000000000), (106922433071/7812500000000), (-5185019383023/500000000000000), (46004102479/6250000000000), (-1454768226281/500000000000000)],
     [(108221658919059/1000000000000000), (106975519937331/1000000000000000), (-53787154991/1953125000000), (4374186785307/250000000000000), (-2330744378239/200000000000000), (4512237122577/1000000000000000)],
     [(48889835046323/500000000000000), (6974132832403/31250000000000), (34078669818263/250000000000000), (-7411741497049/250000000000000), (8179289421719/500000000000000), (-375212663153/62500000000000)],
     [(20424475122587/200000000000000), (202975957373093/1000000000000000), (276399136380739/1000000000000000), (131006023136051/1000000000000000), (-12438151599911/500000000000000), (7837084050643/1000000000000000)],
     [(4898974677/48828125000), (42049461710667/200000000000000), (128042686025161/500000000000000), (253365934704577/1000000000000000), (92430534335701/1000000000000000), (-10995236827731/1000000000000000)],
     [(5039709631337/50000000000000), (41690133431193/200000000000000), (260463391594751/1000000000000000), (242693594234513/1000000000000000), (159820376610253/1000000000000000), (1388888888889/50000000000000)]]
  b := [(5039709631337/50000000000000), (41690133431193/200000000000000), (260463391594751/1000000000000000), (242693594234513/1000000000000000), (159820376610253/1000000000000000), (1388888888889/50000000000000)]
  c := [(39809857051469/1000000000000000), (24751677234201/125000000000000), (218987405123693/500000000000000), (173866068338409/250000000000000), (901464914201173/1000000000000000), 1]
  order := 2 * 6 - 1

/-- nosnoc/rk_utils.py, RADAU_IIA branch `n_s == 7` (starting at line 234). -/
def radau7 : Tableau where
  A := [[(18773132496961/500000000000000), (-14039334556461/1000000000000000), (10352789600743/1000000000000000), (-326332901611/40000000000000), (1277682775907/200000000000000), (-4602326779149/1000000000000000), (1828942561471/1000000000000000)],
     [(4007379825781/50000000000000), (81062063985891/1000000000000000), (-21237992120711/1000000000000000), (14000291238817/1000000000000000), (-1023418573009/100000000000000), (1788366287841/250000000000000), (-2812639372407/1000000000000000)],
     [(72063846941883/1000000000000000), (85534177491943/500000000000000), (109614564040073/1000000000000000), (-4923974345797/200000000000000), (295207540879/20000000000000), (-9575259396791/1000000000000000), (1836339198569/500000000000000)],
     [(3028205032793/40000000000000), (19261269392771/125000000000000), (28388467084151/125000000000000), (23495637407403/200000000000000), (-11905413576521/500000000000000), (3177496383417/250000000000000), (-4608844281289/1000000000000000)],
     [(36956171081597/500000000000000), (161355607615931/1000000000000000), (103433620776073/500000000000000), (29625889417833/125000000000000), (103086793533791/1000000000000000), (-2356767394069/125000000000000), (5858900974893/1000000000000000)],
     [(18676390514953/250000000000000), (158307223872441/1000000000000000), (26769177908399/125000000000000), (8795113881273/40000000000000), (198752121680627/1000000000000000), (69265501605543/1000000000000000), (-4058004098873/500000000000000)],
     [(74494235556031/1000000000000000), (159102115733617/1000000000000000), (106175944751527/500000000000000), (22355491450719/100000000000000), (23809367102757/125000000000000), (119613744612707/1000000000000000), (20408163265273/1000000000000000)]]
  b := [(74494235556031/1000000000000000), (159102115733617/1000000000000000), (106175944751527/500000000000000), (22355491450719/100000000000000), (23809367102757/125000000000000), (119613744612707/1000000000000000), (20408163265273/1000000000000000)]
  c := [(5863285431957/200000000000000), (37019649917121/250000000000000), (168492345140577/500000000000000), (11173430375431/20000000000000), (153846772406011/200000000000000), (926945671319741/1000000000000000), 1]
  order := 2 * 7 - 1

/-- nosnoc/rk_utils.py, RADAU_IIA branch `n_s == 8` (starting at line 316). -/
def radau8 : Tableau where
  A := [[(14401411946309/500000000000000), (-676356128251/62500000000000), (2017252550963/250000000000000), (-811634199567/125000000000000), (1060008203459/200000000000000), (-422330965001/100000000000000), (3069413349141/1000000000000000), (-122382072563/100000000000000)],
     [(61680826212951/1000000000000000), (12661581087057/200000000000000), (-16766167621301/1000000000000000), (11276575963179/1000000000000000), (-8575400848083/1000000000000000), (3303528449211/500000000000000), (-590477171749/125000000000000), (936037247221/500000000000000)],
     [(11057112653447/200000000000000), (33643004963611/250000000000000), (88830181899131/1000000000000000), (-20322485837009/1000000000000000), (1578877777553/125000000000000), (-8970025754043/1000000000000000), (6180900917007/1000000000000000), (-2417353782599/1000000000000000)],
     [(58300686057541/1000000000000000), (60238830738671/500000000000000), (186414284318503/1000000000000000), (50715452078707/500000000000000), (-2649524549819/125000000000000), (6123637147701/500000000000000), (-974829722239/125000000000000), (594079507943/200000000000000)],
     [(14170502246201/250000000000000), (127043161483419/1000000000000000), (168088370419389/1000000000000000), (209202248763793/1000000000000000), (99187005744731/1000000000000000), (-19275308810477/1000000000000000), (10069646505077/1000000000000000), (-362185020403/100000000000000)],
     [(57543032017261/1000000000000000), (61870496119669/500000000000000), (35190310456801/200000000000000), (23852476718373/125000000000000), (199456888942931/1000000000000000), (4121851237889/50000000000000), (-7362397879103/500000000000000), (566850004101/125000000000000)],
     [(57146971559293/1000000000000000), (62610347369091/500000000000000), (172643313188367/1000000000000000), (39482887227841/200000000000000), (185210784696057/1000000000000000), (158621287474583/1000000000000000), (13428121861487/250000000000000), (-1246507155857/200000000000000)],
     [(5725440737217/100000000000000), (124823950664929/1000000000000000), (6940295912717/40000000000000), (195786083725501/1000000000000000), (188258772694223/1000000000000000), (152065310323877/1000000000000000), (92679077400701/1000000000000000), (15624999999989/1000000000000000)]]
  b := [(5725440737217/100000000000000), (124823950664929/1000000000000000), (6940295912717/40000000000000), (195786083725501/1000000000000000), (188258772694223/1000000000000000), (152065310323877/1000000000000000), (92679077400701/1000000000000000), (15624999999989/1000000000000000)]
  c := [(22479386438713/1000000000000000), (14334881645113/125000000000000), (26578982278459/100000000000000), (90569274733889/200000000000000), (64737528288683/100000000000000), (204939827065777/250000000000000), (943737439463077/1000000000000000), 1]
  order := 2 * 8 - 1

/-- nosnoc/rk_utils.py, RADAU_IIA branch `n_s == 9` (starting at line 417). -/
def radau9 : Tableau where
  A := [[(1139418939673/50000000000000), (-8589639752939/1000000000000000), (1612757294249/250000000000000), (-21030114799/4000000000000), (2194416904681/500000000000000), (-3651215553691/1000000000000000), (2940488213753/1000000000000000), (-2149274163883/1000000000000000), (429421662029/500000000000000)],
     [(19563180979/400000000000), (12675512620207/250000000000000), (-13523807196021/1000000000000000), (1841874754861/200000000000000), (-7155713317537/1000000000000000), (718405837429/125000000000000), (-2271291488197/500000000000000), (3288161681791/1000000000000000), (-1309073694109/1000000000000000)],
     [(10935690022893/250000000000000), (5415094645137/50000000000000), (18229891484357/250000000000000), (-527496162813/31250000000000), (5352275922401/500000000000000), (-7901946479239/1000000000000000), (299570347109/50000000000000), (-4248024439987/1000000000000000), (33562996123/20000000000000)],
     [(46249237453949/1000000000000000), (241401826817/2500000000000), (30859753958007/200000000000000), (43359684651559/500000000000000), (-3690327928723/200000000000000), (441466349193/40000000000000), (-7673280940271/1000000000000000), (2614112499943/500000000000000), (-1017952918239/500000000000000)],
     [(2802152286681/62500000000000), (102306849685959/1000000000000000), (138217634192387/1000000000000000), (181263934682107/1000000000000000), (45216800299727/500000000000000), (-18085063366811/1000000000000000), (5096693951941/500000000000000), (-6405265418863/1000000000000000), (1213584969207/500000000000000)],
     [(22829377859651/500000000000000), (99145470489361/1000000000000000), (145747040497213/1000000000000000), (163648281233691/1000000000000000), (185944587344693/1000000000000000), (83613260231573/1000000000000000), (-1580993614607/100000000000000), (2034563173467/250000000000000), (-2910469207819/1000000000000000)],
     [(11300150046921/250000000000000), (25213426679727/250000000000000), (141942236794193/1000000000000000), (85594735918903/500000000000000), (84891693085183/500000000000000), (167768291173161/1000000000000000), (13415806864441/200000000000000), (-11792230536457/1000000000000000), (360924628859/100000000000000)],
     [(45416516657269/1000000000000000), (100060402446161/1000000000000000), (28730568197443/200000000000000), (84009540489433/500000000000000), (175560768418563/1000000000000000), (77943135225951/500000000000000), (32223478379251/250000000000000), (42810826024379/1000000000000000), (-986914954251/200000000000000)],
     [(45357252461599/1000000000000000), (100276649011903/1000000000000000), (143193348179011/1000000000000000), (168846983486219/1000000000000000), (174136501388603/1000000000000000), (39605471959021/250000000000000), (15449336137749/125000000000000), (36913504761287/500000000000000), (6172839506121/500000000000000)]]
  b := [(45357252461599/1000000000000000), (100276649011903/1000000000000000), (143193348179011/1000000000000000), (168846983486219/1000000000000000), (174136501388603/1000000000000000), (39605471959021/250000000000000), (15449336137749/125000000000000), (36913504761287/500000000000000), (6172839506121/500000000000000)]
  c := [(4444978786841/250000000000000), (45661803949897/500000000000000), (21430847939563/100000000000000), (46491520572909/125000000000000), (545186684803427/1000000000000000), (71317524285557/100000000000000), (427816871478927/500000000000000), (95536604471003/100000000000000), 1]
  order := 2 * 9 - 1

/-- nosnoc/rk_utils.py, GAUSS_LEGENDRE branch `n_s == 1` (starting at line 545). -/
def gauss1 : Tableau where
  A := [[(1/2)]]
  b := [1]
  c := [(1/2)]
  order := 2 * 1

/-- nosnoc/rk_utils.py, GAUSS_LEGENDRE branch `n_s == 2` (starting at line 555). -/
def gauss2 : Tableau where
  A := [[(1/4), (-38675134594813/1000000000000000)],
     [(538675134594813/1000000000000000), (1/4)]]
  b := [(1/2), (1/2)]
  c := [(211324865405187/1000000000000000), (788675134594813/1000000000000000)]
  order := 2 * 2

/-- nosnoc/rk_utils.py, GAUSS_LEGENDRE branch `n_s == 3` (starting at line 571). -/
def gauss3 : Tableau where
  A := [[(138888888888889/1000000000000000), (-35976667524939/1000000000000000), (2447361003827/250000000000000)],
     [(60052638996173/200000000000000), (111111111111111/500000000000000), (-22485417203087/1000000000000000)],
     [(267988333762469/1000000000000000), (480421111969383/1000000000000000), (138888888888889/1000000000000000)]]
  b := [(138888888888889/500000000000000), (111111111111111/250000000000000), (138888888888889/500000000000000)]
  c := [(56350832689629/500000000000000), (1/2), (443649167310371/500000000000000)]
  order := 2 * 3

/-- nosnoc/rk_utils.py, GAUSS_LEGENDRE branch `n_s == 4` (starting at line 595). -/
def gauss4 : Tableau where
  A := [[(86963711284363/1000000000000000), (-26604180084999/1000000000000000), (2525492537881/200000000000000), (-888787421449/250000000000000)],
     [(47029529374967/250000000000000), (163036288715637/1000000000000000), (-27880428602471/1000000000000000), (3367750297269/500000000000000)],
     [(167191921974189/1000000000000000), (70790601206749/200000000000000), (40759072178909/250000000000000), (-14190694931141/1000000000000000)],
     [(88741286127261/500000000000000), (19590319671367/62500000000000), (35267675751627/100000000000000), (21740927821091/250000000000000)]]
  b := [(86963711284363/500000000000000), (163036288715639/500000000000000), (40759072178909/125000000000000), (21740927821091/125000000000000)]
  c := [(34715922101487/500000000000000), (82502369551893/250000000000000), (167497630448107/250000000000000), (465284077898513/500000000000000)]
  order := 2 * 4

/-- nosnoc/rk_utils.py, GAUSS_LEGENDRE branch `n_s == 5` (starting at line 629). -/
def gauss5 : Tableau where
  A := [[(59231721264047/1000000000000000), (-4892591089769/250000000000000), (11254400818643/1000000000000000), (-1398448415203/250000000000000), (794056483933/500000000000000)],
     [(25630201134009/200000000000000), (59828583812421/500000000000000), (-12296057309821/500000000000000), (10318280670683/1000000000000000), (-276899439877/100000000000000)],
     [(888877250033/7812500000000), (130002325840321/500000000000000), (142222222222221/1000000000000000), (-10345158215479/500000000000000), (468715452387/100000000000000)],
     [(60616218463431/500000000000000), (114498027289499/500000000000000), (309036559064083/1000000000000000), (119657167624843/1000000000000000), (-193751262839/20000000000000)],
     [(58437664780113/500000000000000), (244908128910493/1000000000000000), (4268594431653/15625000000000), (64721174902191/250000000000000), (3701982579003/62500000000000)]]
  b := [(118463442528091/1000000000000000), (239314335249677/1000000000000000), (71111111111109/250000000000000), (59828583812421/250000000000000), (3701982579003/31250000000000)]
  c := [(11727519257667/250000000000000), (230765344947159/1000000000000000), (1/2), (769234655052841/1000000000000000), (238272480742333/250000000000000)]
  order := 2 * 5

/-- nosnoc/rk_utils.py, GAUSS_LEGENDRE branch `n_s == 6` (starting at line 679). -/
def gauss6 : Tableau where
  A := [[(5353890386849/125000000000000), (-14763725997197/1000000000000000), (9325050706477/1000000000000000), (-5668858049483/1000000000000000), (2854433315099/1000000000000000), (-162556034253/200000000000000)],
     [(46336745715189/500000000000000), (18038078652407/200000000000000), (-507502557331/25000000000000), (10363156240247/1000000000000000), (-2443596464019/500000000000000), (271112211097/200000000000000)],
     [(82247922612843/1000000000000000), (98016081166623/500000000000000), (58489241821587/500000000000000), (-20482527745657/1000000000000000), (3994995949831/500000000000000), (-1037812892433/500000000000000)],
     [(1754757439489/20000000000000), (86195397312207/500000000000000), (50887899006401/200000000000000), (116978483643169/1000000000000000), (-7825687904587/500000000000000), (3414323576741/1000000000000000)],
     [(42153342567051/500000000000000), (185267979452117/1000000000000000), (55898452761527/250000000000000), (127128534789789/500000000000000), (45095196631019/500000000000000), (-1402249048159/200000000000000)],
     [(1729500527217/20000000000000), (88763176604501/500000000000000), (239625825335853/1000000000000000), (224631916579851/1000000000000000), (97572256260639/500000000000000), (4283112309479/100000000000000)]]
  b := [(42831123094793/500000000000000), (180380786524101/1000000000000000), (4679139345727/20000000000000), (29244620910793/125000000000000), (5636899578877/31250000000000), (4283112309479/50000000000000)]
  c := [(33765242898423/1000000000000000), (169395306766867/1000000000000000), (190345203479201/500000000000000), (309654796520799/500000000000000), (207651173308283/250000000000000), (120779344637697/125000000000000)]
  order := 2 * 6

/-- nosnoc/rk_utils.py, GAUSS_LEGENDRE branch `n_s == 7` (starting at line 744). -/
def gauss7 : Tableau where
  A := [[(32371241542217/1000000000000000), (-715688580199/62500000000000), (7633203872423/1000000000000000), (-205349342529/40000000000000), (1587529386843/500000000000000), (-803409518523/500000000000000), (458109523749/1000000000000000)],
     [(35021770689363/500000000000000), (218519837101/3125000000000), (-518437705589/31250000000000), (2337405695861/250000000000000), (-674636491487/125000000000000), (264584386673/100000000000000), (-185962547543/250000000000000)],
     [(62153935787349/1000000000000000), (15200552205783/100000000000000), (95457512626279/1000000000000000), (-4593811053863/250000000000000), (348502503939/40000000000000), (-3953580158811/1000000000000000), (269178903907/250000000000000)],
     [(33166464308839/500000000000000), (66797884611939/500000000000000), (103850940382983/500000000000000), (104489795918363/1000000000000000), (-1678685551341/100000000000000), (6256926520753/1000000000000000), (-6361782133/4000000000000)],
     [(63665767468791/1000000000000000), (14380627590343/100000000000000), (182202462654061/1000000000000000), (113677418026081/500000000000000), (47728756313141/500000000000000), (-1215282631321/100000000000000), (1294273648541/500000000000000)],
     [(32743166637281/500000000000000), (68603425938947/500000000000000), (98156058592207/500000000000000), (199629969053189/1000000000000000), (2593812897893/12500000000000), (34963173936137/500000000000000), (-662632286787/125000000000000)],
     [(64284373560617/1000000000000000), (141459514781547/1000000000000000), (23467495809859/125000000000000), (42822665079949/200000000000000), (9164091069007/50000000000000), (151303713027731/1000000000000000), (32371241542209/1000000000000000)]]
  b := [(1618562077109/25000000000000), (69926347872273/500000000000000), (11932189078279/62500000000000), (208979591836627/1000000000000000), (95457512626289/500000000000000), (139852695744521/1000000000000000), (64742483084429/1000000000000000)]
  c := [(1272302191431/50000000000000), (129234407200303/1000000000000000), (297077424311301/1000000000000000), (1/2), (702922575688699/1000000000000000), (870765592799697/1000000000000000), (974553956171379/1000000000000000)]
  order := 2 * 7

/-- nosnoc/rk_utils.py, GAUSS_LEGENDRE branch `n_s == 8` (starting at line 826). -/
def gauss8 : Tableau where
  A := [[(12653567036297/500000000000000), (-910594330597/100000000000000), (628083114703/100000000000000), (-896603122611/200000000000000), (3078491368327/1000000000000000), (-1917675254637/1000000000000000), (972757664059/1000000000000000), (-277508327117/1000000000000000)],
     [(27379660883777/500000000000000), (11119051722669/200000000000000), (-6819898117891/500000000000000), (8149708858361/1000000000000000), (-5215352089147/1000000000000000), (392469123183/125000000000000), (-1564934910949/1000000000000000), (221401152171/500000000000000)],
     [(48587535998913/1000000000000000), (120859524997173/1000000000000000), (78426661469471/1000000000000000), (-15975103361879/1000000000000000), (4185866360113/500000000000000), (-580433232763/125000000000000), (445142955057/200000000000000), (-618805695251/1000000000000000)],
     [(25932760485291/500000000000000), (2123869802967/20000000000000), (42667783568637/250000000000000), (11333868230573/125000000000000), (-1602104132103/100000000000000), (289648262449/40000000000000), (-1598907155181/500000000000000), (171847316853/200000000000000)],
     [(49755031560927/1000000000000000), (14298541442131/125000000000000), (74806058188841/500000000000000), (49340733252543/250000000000000), (45335472922299/500000000000000), (-431806604237/31250000000000), (4997027078331/1000000000000000), (-1251252825391/1000000000000000)],
     [(51233073840447/1000000000000000), (544824012257/5000000000000), (161496788800919/1000000000000000), (172970158968791/1000000000000000), (24664624381373/125000000000000), (78426661469599/1000000000000000), (-9669007770489/1000000000000000), (2026732146281/1000000000000000)],
     [(10034293168177/200000000000000), (56377726068753/500000000000000), (76856784976563/500000000000000), (186557243777861/1000000000000000), (1353063928367/7812500000000), (17049311917501/100000000000000), (55595258613351/1000000000000000), (-4145053622349/1000000000000000)],
     [(50891776472231/1000000000000000), (55108879781267/500000000000000), (198463747741/1250000000000), (178263400320301/1000000000000000), (92912453651043/500000000000000), (75286245896197/500000000000000), (60148230266301/500000000000000), (12653567036317/500000000000000)]]
  b := [(2530713407263/50000000000000), (27797629306649/250000000000000), (156853322938151/1000000000000000), (36268378337659/200000000000000), (5666934115287/31250000000000), (313706645879/2000000000000), (55595258613307/500000000000000), (10122853629049/200000000000000)]
  c := [(310235496113/15625000000000), (101666761293187/1000000000000000), (59308448760459/250000000000000), (16331307150087/40000000000000), (23668692849913/40000000000000), (190691551239541/250000000000000), (898333238706813/1000000000000000), (15314764503887/15625000000000)]
  order := 2 * 8

/-- nosnoc/rk_utils.py, GAUSS_LEGENDRE branch `n_s == 9` (starting at line 927). -/
def gauss9 : Tableau where
  A := [[(10159298545197/500000000000000), (-7397868566149/1000000000000000), (52220035921/10000000000000), (-774690258349/200000000000000), (283136945007/100000000000000), (-1962194188391/1000000000000000), (1226609788813/1000000000000000), (-622964091649/1000000000000000), (35555692549/200000000000000)],
     [(43965527226529/1000000000000000), (22581020086857/500000000000000), (-2267092802467/200000000000000), (1406953360347/200000000000000), (-4788276131017/1000000000000000), (640672030397/200000000000000), (-1964405739953/1000000000000000), (493586051833/500000000000000), (-280274237641/1000000000000000)],
     [(7801730679257/200000000000000), (12272688994981/125000000000000), (65152674100733/1000000000000000), (-13770833986609/1000000000000000), (7664175624643/1000000000000000), (-4713586467799/1000000000000000), (2770828892759/1000000000000000), (-1361671983073/1000000000000000), (191266056459/500000000000000)],
     [(20822543513663/500000000000000), (86255472772503/1000000000000000), (70897608020569/500000000000000), (3904338463/50000000000), (-14618957875909/1000000000000000), (3650214131091/500000000000000), (-1966419957519/500000000000000), (1852686200821/1000000000000000), (-31910842183/62500000000000)],
     [(1997018643493/50000000000000), (3717734890909/40000000000000), (6212855520537/50000000000000), (85000222627647/500000000000000), (82559838750321/1000000000000000), (-6913453367609/500000000000000), (3024118895339/500000000000000), (-2619291925299/1000000000000000), (139364262191/200000000000000)],
     [(20573883827913/500000000000000), (88471394146737/1000000000000000), (134238188116171/1000000000000000), (148873110258109/1000000000000000), (17973863537631/100000000000000), (624694154081/8000000000000), (-11489867839813/1000000000000000), (4068607574951/1000000000000000), (-1007892846527/1000000000000000)],
     [(10063665517027/250000000000000), (91685752330989/1000000000000000), (3985453728383/31250000000000), (160887124988221/1000000000000000), (19681937734461/125000000000000), (5310761640839/31250000000000), (32576337050159/500000000000000), (-3928715806211/500000000000000), (1628540784537/1000000000000000)],
     [(1636698736761/40000000000000), (89336908244377/1000000000000000), (132269753940591/1000000000000000), (76485089184189/500000000000000), (169907953631991/1000000000000000), (149138771718299/1000000000000000), (70820406106577/500000000000000), (45162040173409/1000000000000000), (-1664166522829/500000000000000)],
     [(40459415718829/1000000000000000), (90947044440327/1000000000000000), (8067421150713/62500000000000), (6325429308381/40000000000000), (81144154024969/500000000000000), (16004698981169/100000000000000), (31270836152089/250000000000000), (97721948913431/1000000000000000), (10159298545233/500000000000000)]]
  b := [(40637194181613/1000000000000000), (45162040174091/500000000000000), (130305348199727/1000000000000000), (1220105769697/7812500000000), (33023935500023/200000000000000), (1220105769697/7812500000000), (32576337050159/250000000000000), (36129632139/400000000000), (8127438836209/200000000000000)]
  c := [(15919880246187/1000000000000000), (40992223168341/500000000000000), (38662856729941/200000000000000), (67574657659619/200000000000000), (1/2), (132425342340381/200000000000000), (161337143270059/200000000000000), (459007776831659/500000000000000), (984080119753813/1000000000000000)]
  order := 2 * 9

end Nosnoc
