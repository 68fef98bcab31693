import Verif.Tensor.EigenLemmas

/-!
# The rational function of `Cos_Of_Acos_Divided_By_3`

Bernstein-form certificates (one pair per eighth of the unit interval) that `4p³-3p` differs from
`x` by at most `1e-15`.  The coefficients were generated by a script and are checked here by `ring`.
-/

set_option linter.unusedSimpArgs false

namespace NimbleSM.Tensor

/-- Numerator of `padeCos`. -/
noncomputable def padeNum (x : ℝ) : ℝ :=
  0.866025403784438713 + 2.12714890259493060 * x + 1.89202064815951569 * x ^ 2 +
    0.739603278343401613 * x ^ 3 + 0.121973926953064794 * x ^ 4 + 0.00655637626263929360 * x ^ 5 +
    0.0000390884982780803443 * x ^ 6

/-- Denominator of `padeCos`. -/
noncomputable def padeDen (x : ℝ) : ℝ :=
  1 + 2.26376989330935617 * x + 1.80461009751278976 * x ^ 2 + 0.603976798217196003 * x ^ 3 +
    0.0783255761115461708 * x ^ 4 + 0.00268525944538021629 * x ^ 5

theorem pade_lo0 (x : ℝ) (h0 : 0 ≤ x) (h1 : x ≤ 1/8) :
    0 ≤ 1e-15 * padeDen x ^ 3 - (4 * padeNum x ^ 3 - 3 * padeNum x * padeDen x ^ 2 - x * padeDen x ^ 3) := by
  have hu : 0 ≤ 8*x-0 := by linarith
  have hv : 0 ≤ 1-8*x := by linarith
  have h : 1e-15 * padeDen x ^ 3 - (4 * padeNum x ^ 3 - 3 * padeNum x * padeDen x ^ 2 - x * padeDen x ^ 3) =
      150645584756129392876811877524436666903/250000000000000000000000000000000000000000000000000000 * (8*x-0)^0 * (1-8*x)^18+
      7892791064031427656579334250090109882479/250000000000000000000000000000000000000000000000000000 * (8*x-0)^1 * (1-8*x)^17+
      4667547549342821963951595237954648451113421/16000000000000000000000000000000000000000000000000000000 * (8*x-0)^2 * (1-8*x)^16+
      663459866954126742972541674079429802858921504878652530113/512000000000000000000000000000000000000000000000000000000000000000000 * (8*x-0)^3 * (1-8*x)^15+
      1780021015996406234248058507839929663735872274486293377119/512000000000000000000000000000000000000000000000000000000000000000000 * (8*x-0)^4 * (1-8*x)^14+
      2103057668270949481538977329359906077051703854280356443602601/327680000000000000000000000000000000000000000000000000000000000000000000 * (8*x-0)^5 * (1-8*x)^13+
      63802315829631662623184491970546986237817860888985338621087709/6553600000000000000000000000000000000000000000000000000000000000000000000 * (8*x-0)^6 * (1-8*x)^12+
      32791127360344623350098132942894318414998695599580946069637707653/2097152000000000000000000000000000000000000000000000000000000000000000000000 * (8*x-0)^7 * (1-8*x)^11+
      5829421690324112241252548589692704770617371451794090028065195693/209715200000000000000000000000000000000000000000000000000000000000000000000 * (8*x-0)^8 * (1-8*x)^10+
      7479518728255408442983618851298050309358019412972032293961936928321/167772160000000000000000000000000000000000000000000000000000000000000000000000 * (8*x-0)^9 * (1-8*x)^9+
      377765944000433678479190747752937418830051567167442527213499502039989/6710886400000000000000000000000000000000000000000000000000000000000000000000000 * (8*x-0)^10 * (1-8*x)^8+
      462744582047111102957293851506364052252296160964578367940588721957950161/8589934592000000000000000000000000000000000000000000000000000000000000000000000000 * (8*x-0)^11 * (1-8*x)^7+
      166675788231918300961222958255183200922963311368967430216319344991197567/4294967296000000000000000000000000000000000000000000000000000000000000000000000000 * (8*x-0)^12 * (1-8*x)^6+
      115083971237326564368819793597801755548796681395189548909108310494396015457/5497558138880000000000000000000000000000000000000000000000000000000000000000000000000 * (8*x-0)^13 * (1-8*x)^5+
      917093036476830251021365732695412556221942855899282593513228211015571854821/109951162777600000000000000000000000000000000000000000000000000000000000000000000000000 * (8*x-0)^14 * (1-8*x)^4+
      83947865973144964609464724985386986993126083055730232697119486467733609604069/35184372088832000000000000000000000000000000000000000000000000000000000000000000000000000 * (8*x-0)^15 * (1-8*x)^3+
      16331896943177696163109619734344214693170449539498661041089291384866490659887/35184372088832000000000000000000000000000000000000000000000000000000000000000000000000000 * (8*x-0)^16 * (1-8*x)^2+
      1938232184790691995384374886725997845060202946932169080846607239742074806447/35184372088832000000000000000000000000000000000000000000000000000000000000000000000000000 * (8*x-0)^17 * (1-8*x)^1+
      106097315356271509004746410208455292992754940102650231689346612392392667209/35184372088832000000000000000000000000000000000000000000000000000000000000000000000000000 * (8*x-0)^18 * (1-8*x)^0 := by
    unfold padeDen padeNum
    ring
  rw [h]
  positivity

theorem pade_up0 (x : ℝ) (h0 : 0 ≤ x) (h1 : x ≤ 1/8) :
    0 ≤ 1e-15 * padeDen x ^ 3 + (4 * padeNum x ^ 3 - 3 * padeNum x * padeDen x ^ 2 - x * padeDen x ^ 3) := by
  have hu : 0 ≤ 8*x-0 := by linarith
  have hv : 0 ≤ 1-8*x := by linarith
  have h : 1e-15 * padeDen x ^ 3 + (4 * padeNum x ^ 3 - 3 * padeNum x * padeDen x ^ 2 - x * padeDen x ^ 3) =
      349354415243870607123188122475563333097/250000000000000000000000000000000000000000000000000000 * (8*x-0)^0 * (1-8*x)^18+
      1531665790964076625295665749909890117521/250000000000000000000000000000000000000000000000000000 * (8*x-0)^1 * (1-8*x)^17+
      700655405233336660093627683335227152236579/16000000000000000000000000000000000000000000000000000000 * (8*x-0)^2 * (1-8*x)^16+
      295744775481028470491730732248799590422552344878652530113/512000000000000000000000000000000000000000000000000000000000000000000 * (8*x-0)^3 * (1-8*x)^15+
      1985596357605476890358247861071934453080917527486293377119/512000000000000000000000000000000000000000000000000000000000000000000 * (8*x-0)^4 * (1-8*x)^14+
      4960572001506702957270130071988231848914881377656356443602601/327680000000000000000000000000000000000000000000000000000000000000000000 * (8*x-0)^5 * (1-8*x)^13+
      256576575774973676352932943773947279627412416010433358621087709/6553600000000000000000000000000000000000000000000000000000000000000000000 * (8*x-0)^6 * (1-8*x)^12+
      151146749859630704733769480865698676252684070725471262869637707653/2097152000000000000000000000000000000000000000000000000000000000000000000000 * (8*x-0)^7 * (1-8*x)^11+
      20637793317985804675442750201316154878855776244909497118065195693/209715200000000000000000000000000000000000000000000000000000000000000000000 * (8*x-0)^8 * (1-8*x)^10+
      17138350263104270306897318159077649950648403975469734995961936928321/167772160000000000000000000000000000000000000000000000000000000000000000000000 * (8*x-0)^9 * (1-8*x)^9+
      549508128766330892127938512926797309747236544561578587914749502039989/6710886400000000000000000000000000000000000000000000000000000000000000000000000 * (8*x-0)^10 * (1-8*x)^8+
      440345443729402350974388066376823466364197661314659303777708721957950161/8589934592000000000000000000000000000000000000000000000000000000000000000000000000 * (8*x-0)^11 * (1-8*x)^7+
      108870186166538548773715861168615233756803283888071598864007399991197567/4294967296000000000000000000000000000000000000000000000000000000000000000000000000 * (8*x-0)^12 * (1-8*x)^6+
      55190212017091573105462610906281710862487320997993198131895532894396015457/5497558138880000000000000000000000000000000000000000000000000000000000000000000000000 * (8*x-0)^13 * (1-8*x)^5+
      354998464144047921210827090958232102333992334236255716970856091015571854821/109951162777600000000000000000000000000000000000000000000000000000000000000000000000000 * (8*x-0)^14 * (1-8*x)^4+
      29578158139789614406536584089727789975730183465949364828736172147733609604069/35184372088832000000000000000000000000000000000000000000000000000000000000000000000000000 * (8*x-0)^15 * (1-8*x)^3+
      5927629788999501771281601038520237544994131617512222292434807232366490659887/35184372088832000000000000000000000000000000000000000000000000000000000000000000000000000 * (8*x-0)^16 * (1-8*x)^2+
      800043433295570024998490513987875431789827141959895635884985253742074806447/35184372088832000000000000000000000000000000000000000000000000000000000000000000000000000 * (8*x-0)^17 * (1-8*x)^1+
      52957133001332646651581200678020553038575723500838579344902030444064542209/35184372088832000000000000000000000000000000000000000000000000000000000000000000000000000 * (8*x-0)^18 * (1-8*x)^0 := by
    unfold padeDen padeNum
    ring
  rw [h]
  positivity

theorem pade_lo1 (x : ℝ) (h0 : 1/8 ≤ x) (h1 : x ≤ 1/4) :
    0 ≤ 1e-15 * padeDen x ^ 3 - (4 * padeNum x ^ 3 - 3 * padeNum x * padeDen x ^ 2 - x * padeDen x ^ 3) := by
  have hu : 0 ≤ 8*x-1 := by linarith
  have hv : 0 ≤ 2-8*x := by linarith
  have h : 1e-15 * padeDen x ^ 3 - (4 * padeNum x ^ 3 - 3 * padeNum x * padeDen x ^ 2 - x * padeDen x ^ 3) =
      106097315356271509004746410208455292992754940102650231689346612392392667209/35184372088832000000000000000000000000000000000000000000000000000000000000000000000000000 * (8*x-1)^0 * (2-8*x)^18+
      1881271168035082328786495880778392702678974896763239259969870806384061213077/35184372088832000000000000000000000000000000000000000000000000000000000000000000000000000 * (8*x-1)^1 * (2-8*x)^17+
      15363559658332331830945676633234927272689572686626854086184772017780259572597/35184372088832000000000000000000000000000000000000000000000000000000000000000000000000000 * (8*x-1)^2 * (2-8*x)^16+
      76877802328145277903927733975481208132282148067227653105238185125844728345499/35184372088832000000000000000000000000000000000000000000000000000000000000000000000000000 * (8*x-1)^3 * (2-8*x)^15+
      26488579978521952631689761740268832871683283728997629243837505676354826164737/3518437208883200000000000000000000000000000000000000000000000000000000000000000000000000 * (8*x-1)^4 * (2-8*x)^14+
      167716681480062195148814570177988257054004629970723495292391445301898684512291/8796093022208000000000000000000000000000000000000000000000000000000000000000000000000000 * (8*x-1)^5 * (2-8*x)^13+
      163231332152981468155343311762314114199578295193047024693336902992693208800309/4398046511104000000000000000000000000000000000000000000000000000000000000000000000000000 * (8*x-1)^6 * (2-8*x)^12+
      126564584344926696144662585714305103112034274021867094070673714026530564761527/2199023255552000000000000000000000000000000000000000000000000000000000000000000000000000 * (8*x-1)^7 * (2-8*x)^11+
      80728793234800637964938424295103120865958602038638513064791007216860185977497/1099511627776000000000000000000000000000000000000000000000000000000000000000000000000000 * (8*x-1)^8 * (2-8*x)^10+
      8705207669017389892135265174477822622259153291609881847231353789573618738059/109951162777600000000000000000000000000000000000000000000000000000000000000000000000000 * (8*x-1)^9 * (2-8*x)^9+
      20157230651918081992242685941319400398096549962494275620933654543641577912141/274877906944000000000000000000000000000000000000000000000000000000000000000000000000000 * (8*x-1)^10 * (2-8*x)^8+
      8003905058737301473515054385680000259865621867378354045310907065622082203569/137438953472000000000000000000000000000000000000000000000000000000000000000000000000000 * (8*x-1)^11 * (2-8*x)^7+
      2671203623334032601289354160703029789143200387442013879968695273993350630447/68719476736000000000000000000000000000000000000000000000000000000000000000000000000000 * (8*x-1)^12 * (2-8*x)^6+
      725508439769791068810193190362796992034888225685949765771426179205833423497/34359738368000000000000000000000000000000000000000000000000000000000000000000000000000 * (8*x-1)^13 * (2-8*x)^5+
      30828848098612928669135380547255989025749020392336286958455660428434027747/3435973836800000000000000000000000000000000000000000000000000000000000000000000000000 * (8*x-1)^14 * (2-8*x)^4+
      24410633450408629328565190552395246027111296746166624536624765582047998397/8589934592000000000000000000000000000000000000000000000000000000000000000000000000000 * (8*x-1)^15 * (2-8*x)^3+
      2692239270740758699396211310971948602223970837658039275059485849368710443/4294967296000000000000000000000000000000000000000000000000000000000000000000000000000 * (8*x-1)^16 * (2-8*x)^2+
      183755851202768139591612089401187498750805316004674679652231342263908489/2147483648000000000000000000000000000000000000000000000000000000000000000000000000000 * (8*x-1)^17 * (2-8*x)^1+
      5830265386719155499069235638223326795278193465164468763737776890219749/1073741824000000000000000000000000000000000000000000000000000000000000000000000000000 * (8*x-1)^18 * (2-8*x)^0 := by
    unfold padeDen padeNum
    ring
  rw [h]
  positivity

theorem pade_up1 (x : ℝ) (h0 : 1/8 ≤ x) (h1 : x ≤ 1/4) :
    0 ≤ 1e-15 * padeDen x ^ 3 + (4 * padeNum x ^ 3 - 3 * padeNum x * padeDen x ^ 2 - x * padeDen x ^ 3) := by
  have hu : 0 ≤ 8*x-1 := by linarith
  have hv : 0 ≤ 2-8*x := by linarith
  have h : 1e-15 * padeDen x ^ 3 + (4 * padeNum x ^ 3 - 3 * padeNum x * padeDen x ^ 2 - x * padeDen x ^ 3) =
      52957133001332646651581200678020553038575723500838579344902030444064542209/35184372088832000000000000000000000000000000000000000000000000000000000000000000000000000 * (8*x-1)^0 * (2-8*x)^18+
      1106413354752405254458432710420864477598898904070293220531487842244248713077/35184372088832000000000000000000000000000000000000000000000000000000000000000000000000000 * (8*x-1)^1 * (2-8*x)^17+
      11135918453765700672100618377881051323748351573388981231425351236903447072597/35184372088832000000000000000000000000000000000000000000000000000000000000000000000000000 * (8*x-1)^2 * (2-8*x)^16+
      70586531628103866016817887559633746806238386081732768571266135991158728345499/35184372088832000000000000000000000000000000000000000000000000000000000000000000000000000 * (8*x-1)^3 * (2-8*x)^15+
      31206201766951319687616283400635852290416298972221217044937988641340326164737/3518437208883200000000000000000000000000000000000000000000000000000000000000000000000000 * (8*x-1)^4 * (2-8*x)^14+
      253611218926371591792916466127303951626901262964702478505275975115695684512291/8796093022208000000000000000000000000000000000000000000000000000000000000000000000000000 * (8*x-1)^5 * (2-8*x)^13+
      312909452332245139428177271591677733434720713925740498821656521854586708800309/4398046511104000000000000000000000000000000000000000000000000000000000000000000000000000 * (8*x-1)^6 * (2-8*x)^12+
      299140765134227761026529121948142449378161177998765843808514467661776564761527/2199023255552000000000000000000000000000000000000000000000000000000000000000000000000000 * (8*x-1)^7 * (2-8*x)^11+
      224531153321367660184861130909778679915224004170512326898075803169323435977497/1099511627776000000000000000000000000000000000000000000000000000000000000000000000000000 * (8*x-1)^8 * (2-8*x)^10+
      26668686436760709860048016733501567954608591723889558907062956353232118738059/109951162777600000000000000000000000000000000000000000000000000000000000000000000000000 * (8*x-1)^9 * (2-8*x)^9+
      62844764867465514094223239226463320408559924282781618595339336594104827912141/274877906944000000000000000000000000000000000000000000000000000000000000000000000000000 * (8*x-1)^10 * (2-8*x)^8+
      23469709049123594403608106070265177147453901923695274507803828188868082203569/137438953472000000000000000000000000000000000000000000000000000000000000000000000000000 * (8*x-1)^11 * (2-8*x)^7+
      6900557818164773270355031954642393208712803576631158782143769707886850630447/68719476736000000000000000000000000000000000000000000000000000000000000000000000000000 * (8*x-1)^12 * (2-8*x)^6+
      1577502186617677034794433318809489961699258646261174070611570265002833423497/34359738368000000000000000000000000000000000000000000000000000000000000000000000000000 * (8*x-1)^13 * (2-8*x)^5+
      54920702081522692446940417071608170685103644245944094024980845413934027747/3435973836800000000000000000000000000000000000000000000000000000000000000000000000000 * (8*x-1)^14 * (2-8*x)^4+
      35183340093722127289844927631831736608510551047148564429351886896047998397/8589934592000000000000000000000000000000000000000000000000000000000000000000000000000 * (8*x-1)^15 * (2-8*x)^3+
      3131517534439471063560760637465908385441390378914218333544965095743710443/4294967296000000000000000000000000000000000000000000000000000000000000000000000000000 * (8*x-1)^16 * (2-8*x)^2+
      173312883831488109754004651383738498800221523669712130874518783013908489/2147483648000000000000000000000000000000000000000000000000000000000000000000000000000 * (8*x-1)^17 * (2-8*x)^1+
      4507217201527357310622463795114271718088661726761499194321190265219749/1073741824000000000000000000000000000000000000000000000000000000000000000000000000000 * (8*x-1)^18 * (2-8*x)^0 := by
    unfold padeDen padeNum
    ring
  rw [h]
  positivity

theorem pade_lo2 (x : ℝ) (h0 : 1/4 ≤ x) (h1 : x ≤ 3/8) :
    0 ≤ 1e-15 * padeDen x ^ 3 - (4 * padeNum x ^ 3 - 3 * padeNum x * padeDen x ^ 2 - x * padeDen x ^ 3) := by
  have hu : 0 ≤ 8*x-2 := by linarith
  have hv : 0 ≤ 3-8*x := by linarith
  have h : 1e-15 * padeDen x ^ 3 - (4 * padeNum x ^ 3 - 3 * padeNum x * padeDen x ^ 2 - x * padeDen x ^ 3) =
      5830265386719155499069235638223326795278193465164468763737776890219749/1073741824000000000000000000000000000000000000000000000000000000000000000000000000000 * (8*x-2)^0 * (3-8*x)^18+
      236023256641011056341372876550892030509224613487167071336888593831913439/2147483648000000000000000000000000000000000000000000000000000000000000000000000000000 * (8*x-2)^1 * (3-8*x)^17+
      4469331055641017868888078074061902682010226952062780592337832402680878743/4294967296000000000000000000000000000000000000000000000000000000000000000000000000000 * (8*x-2)^2 * (3-8*x)^16+
      52519727215797632464836188783400485790078844762525002861368588326120769667/8589934592000000000000000000000000000000000000000000000000000000000000000000000000000 * (8*x-2)^3 * (3-8*x)^15+
      85749536457330360639281897095530366497233917168583112601104417480891884167/3435973836800000000000000000000000000000000000000000000000000000000000000000000000000 * (8*x-2)^4 * (3-8*x)^14+
      2580398239093109082150808800780588391954517925102088569217212122627951996271/34359738368000000000000000000000000000000000000000000000000000000000000000000000000000 * (8*x-2)^5 * (3-8*x)^13+
      11860656677854108566022605361621741683452312777864043474689545449959749544171/68719476736000000000000000000000000000000000000000000000000000000000000000000000000000 * (8*x-2)^6 * (3-8*x)^12+
      42562640825046154344058934576602208541064646156112428102853767086287375249727/137438953472000000000000000000000000000000000000000000000000000000000000000000000000000 * (8*x-2)^7 * (3-8*x)^11+
      120875109942349846070623948997477670414817959811937358480691765262725606542913/274877906944000000000000000000000000000000000000000000000000000000000000000000000000000 * (8*x-2)^8 * (3-8*x)^10+
      54740458056293653843501357701031117796520266268856765263442102765821255799597/109951162777600000000000000000000000000000000000000000000000000000000000000000000000000 * (8*x-2)^9 * (3-8*x)^9+
      495379153424375732440783645392735822821938903953484830177174103980671057534253/1099511627776000000000000000000000000000000000000000000000000000000000000000000000000000 * (8*x-2)^10 * (3-8*x)^8+
      715138823919543887004479222384099595768950669838581745898851726575926415477673/2199023255552000000000000000000000000000000000000000000000000000000000000000000000000000 * (8*x-2)^11 * (3-8*x)^7+
      817664517072924850782071866627746607922960552803913644818520710179594991746801/4398046511104000000000000000000000000000000000000000000000000000000000000000000000000000 * (8*x-2)^12 * (3-8*x)^6+
      730861566216427318457799623030014038382282111016762425766656779179154442184869/8796093022208000000000000000000000000000000000000000000000000000000000000000000000000000 * (8*x-2)^13 * (3-8*x)^5+
      99989845097808145576261890649779842956419819055303828624716611163305432095013/3518437208883200000000000000000000000000000000000000000000000000000000000000000000000000 * (8*x-2)^14 * (3-8*x)^4+
      252904258073496221705345275205566943781349805642182446470115473240446775278293/35184372088832000000000000000000000000000000000000000000000000000000000000000000000000000 * (8*x-2)^15 * (3-8*x)^3+
      44637742802724761789322374250404574176975147083583379100463036158394878734979/35184372088832000000000000000000000000000000000000000000000000000000000000000000000000000 * (8*x-2)^16 * (3-8*x)^2+
      4920650135689779833517570883244381488999173230709736848618046935125122328699/35184372088832000000000000000000000000000000000000000000000000000000000000000000000000000 * (8*x-2)^17 * (3-8*x)^1+
      255998464060867447549683903203836651506061857804430524753291011576232243003/35184372088832000000000000000000000000000000000000000000000000000000000000000000000000000 * (8*x-2)^18 * (3-8*x)^0 := by
    unfold padeDen padeNum
    ring
  rw [h]
  positivity

theorem pade_up2 (x : ℝ) (h0 : 1/4 ≤ x) (h1 : x ≤ 3/8) :
    0 ≤ 1e-15 * padeDen x ^ 3 + (4 * padeNum x ^ 3 - 3 * padeNum x * padeDen x ^ 2 - x * padeDen x ^ 3) := by
  have hu : 0 ≤ 8*x-2 := by linarith
  have hv : 0 ≤ 3-8*x := by linarith
  have h : 1e-15 * padeDen x ^ 3 + (4 * padeNum x ^ 3 - 3 * padeNum x * padeDen x ^ 2 - x * padeDen x ^ 3) =
      4507217201527357310622463795114271718088661726761499194321190265219749/1073741824000000000000000000000000000000000000000000000000000000000000000000000000000 * (8*x-2)^0 * (3-8*x)^18+
      151206754678481616610812741864489064902162120657115811116606916081913439/2147483648000000000000000000000000000000000000000000000000000000000000000000000000000 * (8*x-2)^1 * (3-8*x)^17+
      2379909143237250296692235713811427632907370676485943461775961620055878743/4294967296000000000000000000000000000000000000000000000000000000000000000000000000000 * (8*x-2)^2 * (3-8*x)^16+
      23489858025650602143277180991019152875918667716460346058802847804120769667/8589934592000000000000000000000000000000000000000000000000000000000000000000000000000 * (8*x-2)^3 * (3-8*x)^15+
      32862746710035670647119532340619436451729605217224375594902833306391884167/3435973836800000000000000000000000000000000000000000000000000000000000000000000000000 * (8*x-2)^4 * (3-8*x)^14+
      874462682487941386418300563113462315570158585286907689367254571298951996271/34359738368000000000000000000000000000000000000000000000000000000000000000000000000000 * (8*x-2)^5 * (3-8*x)^13+
      3712203840564609539712149365842149538495020687634096956465746382321249544171/68719476736000000000000000000000000000000000000000000000000000000000000000000000000000 * (8*x-2)^6 * (3-8*x)^12+
      12972797556278839434689197491573519422237419104581270059336887369289375249727/137438953472000000000000000000000000000000000000000000000000000000000000000000000000000 * (8*x-2)^7 * (3-8*x)^11+
      37966549819339165430494301829770492754539189520367819834073389168108856542913/274877906944000000000000000000000000000000000000000000000000000000000000000000000000000 * (8*x-2)^8 * (3-8*x)^10+
      18679875511649111840375521057772915912002184747807688842920601928076755799597/109951162777600000000000000000000000000000000000000000000000000000000000000000000000000 * (8*x-2)^9 * (3-8*x)^9+
      191794155448740305594357290736531657605671426556456775952328103383120307534253/1099511627776000000000000000000000000000000000000000000000000000000000000000000000000000 * (8*x-2)^10 * (3-8*x)^8+
      324240305827855374184793023713294492307671845092824633612241324731088415477673/2199023255552000000000000000000000000000000000000000000000000000000000000000000000000000 * (8*x-2)^11 * (3-8*x)^7+
      443216816007432412714493850288336724255873829516920808652474227355128491746801/4398046511104000000000000000000000000000000000000000000000000000000000000000000000000000 * (8*x-2)^12 * (3-8*x)^6+
      479286725505615541435135412021049131230574618696278550035066707181585442184869/8796093022208000000000000000000000000000000000000000000000000000000000000000000000000000 * (8*x-2)^13 * (3-8*x)^5+
      79748241390316659455513672943490963799853561776097096949234640223254932095013/3518437208883200000000000000000000000000000000000000000000000000000000000000000000000000 * (8*x-2)^14 * (3-8*x)^4+
      245384989362845540283554845468938719800335416727282377216651358152244775278293/35184372088832000000000000000000000000000000000000000000000000000000000000000000000000000 * (8*x-2)^15 * (3-8*x)^3+
      52486712110706717250633554364971721371563366880226990994349949971338066234979/35184372088832000000000000000000000000000000000000000000000000000000000000000000000000000 * (8*x-2)^16 * (3-8*x)^2+
      6956948409388634132721402940419599101403791775751225095762315952085684828699/35184372088832000000000000000000000000000000000000000000000000000000000000000000000000000 * (8*x-2)^17 * (3-8*x)^1+
      429881801909978380047133077397912773391793200069231277014933582656279118003/35184372088832000000000000000000000000000000000000000000000000000000000000000000000000000 * (8*x-2)^18 * (3-8*x)^0 := by
    unfold padeDen padeNum
    ring
  rw [h]
  positivity

theorem pade_lo3 (x : ℝ) (h0 : 3/8 ≤ x) (h1 : x ≤ 1/2) :
    0 ≤ 1e-15 * padeDen x ^ 3 - (4 * padeNum x ^ 3 - 3 * padeNum x * padeDen x ^ 2 - x * padeDen x ^ 3) := by
  have hu : 0 ≤ 8*x-3 := by linarith
  have hv : 0 ≤ 4-8*x := by linarith
  have h : 1e-15 * padeDen x ^ 3 - (4 * padeNum x ^ 3 - 3 * padeNum x * padeDen x ^ 2 - x * padeDen x ^ 3) =
      255998464060867447549683903203836651506061857804430524753291011576232243003/35184372088832000000000000000000000000000000000000000000000000000000000000000000000000000 * (8*x-3)^0 * (4-8*x)^18+
      4295294570501448278271049632093737965219053650249762042500429481619238419409/35184372088832000000000000000000000000000000000000000000000000000000000000000000000000000 * (8*x-3)^1 * (4-8*x)^17+
      34006698194523125350131512980843634272713114215763807396463539448794852277049/35184372088832000000000000000000000000000000000000000000000000000000000000000000000000000 * (8*x-3)^2 * (4-8*x)^16+
      169827811187798623723748660437081560897876471273711304685967874689766879752363/35184372088832000000000000000000000000000000000000000000000000000000000000000000000000000 * (8*x-3)^3 * (4-8*x)^15+
      30211765817437420058696929326769643932653040222576844790245593507042900234779/1759218604441600000000000000000000000000000000000000000000000000000000000000000000000000 * (8*x-3)^4 * (4-8*x)^14+
      102580465196541776654649159760109153824228797257231095241438521124419219651227/2199023255552000000000000000000000000000000000000000000000000000000000000000000000000000 * (8*x-3)^5 * (4-8*x)^13+
      55587723781692989562865049546292676320050927065488816380976115662626210397319/549755813888000000000000000000000000000000000000000000000000000000000000000000000000000 * (8*x-3)^6 * (4-8*x)^12+
      24716049585233070206744352480242511468829443428125279565495811633183077037431/137438953472000000000000000000000000000000000000000000000000000000000000000000000000000 * (8*x-3)^7 * (4-8*x)^11+
      9147177965899032623040068941440376108194756752025809173598452548863327887363/34359738368000000000000000000000000000000000000000000000000000000000000000000000000000 * (8*x-3)^8 * (4-8*x)^10+
      565201012123807672418302434724752151500953566240048141979481444273787257771/1717986918400000000000000000000000000000000000000000000000000000000000000000000000000 * (8*x-3)^9 * (4-8*x)^9+
      724695286272992716906428994947463078800748962755486704930870366612291051579/2147483648000000000000000000000000000000000000000000000000000000000000000000000000000 * (8*x-3)^10 * (4-8*x)^8+
      152477768792410162682492843921909193939497423038099458911314694087328950273/536870912000000000000000000000000000000000000000000000000000000000000000000000000000 * (8*x-3)^11 * (4-8*x)^7+
      25908932674004436642744847491743991442867309551620372297824472968130776597/134217728000000000000000000000000000000000000000000000000000000000000000000000000000 * (8*x-3)^12 * (4-8*x)^6+
      3483984458158024635994911312513330251260312161663566431627041363781367921/33554432000000000000000000000000000000000000000000000000000000000000000000000000000 * (8*x-3)^13 * (4-8*x)^5+
      72176256648844992255559947279405657075030783989871026577418896728765201/1677721600000000000000000000000000000000000000000000000000000000000000000000000000 * (8*x-3)^14 * (4-8*x)^4+
      27696948301443199170138599577387245612124340552300642997287536970421661/2097152000000000000000000000000000000000000000000000000000000000000000000000000000 * (8*x-3)^15 * (4-8*x)^3+
      1480228941437252231751380981734921254174494946774275155614218501510497/524288000000000000000000000000000000000000000000000000000000000000000000000000000 * (8*x-3)^16 * (4-8*x)^2+
      49103257506658992509093119526424474692313994299646120767563033598413/131072000000000000000000000000000000000000000000000000000000000000000000000000000 * (8*x-3)^17 * (4-8*x)^1+
      760491421223484570995814569395988227106600028848033686508346329669/32768000000000000000000000000000000000000000000000000000000000000000000000000000 * (8*x-3)^18 * (4-8*x)^0 := by
    unfold padeDen padeNum
    ring
  rw [h]
  positivity

theorem pade_up3 (x : ℝ) (h0 : 3/8 ≤ x) (h1 : x ≤ 1/2) :
    0 ≤ 1e-15 * padeDen x ^ 3 + (4 * padeNum x ^ 3 - 3 * padeNum x * padeDen x ^ 2 - x * padeDen x ^ 3) := by
  have hu : 0 ≤ 8*x-3 := by linarith
  have hv : 0 ≤ 4-8*x := by linarith
  have h : 1e-15 * padeDen x ^ 3 + (4 * padeNum x ^ 3 - 3 * padeNum x * padeDen x ^ 2 - x * padeDen x ^ 3) =
      429881801909978380047133077397912773391793200069231277014933582656279118003/35184372088832000000000000000000000000000000000000000000000000000000000000000000000000000 * (8*x-3)^0 * (4-8*x)^18+
      8518796459370587548975387845905260740700763426741100876775293023540363419409/35184372088832000000000000000000000000000000000000000000000000000000000000000000000000000 * (8*x-3)^1 * (4-8*x)^17+
      79038128960399925326951297758227969239611884947054879271570560186067602277049/35184372088832000000000000000000000000000000000000000000000000000000000000000000000000000 * (8*x-3)^2 * (4-8*x)^16+
      455878266340691308483960423875469037627655607483256658861333590576150879752363/35184372088832000000000000000000000000000000000000000000000000000000000000000000000000000 * (8*x-3)^3 * (4-8*x)^15+
      91538411029769823572790046703618228798222851687717706599246553570638900234779/1759218604441600000000000000000000000000000000000000000000000000000000000000000000000000 * (8*x-3)^4 * (4-8*x)^14+
      339613306361763337457519368230257596469475563878456070597317274023867219651227/2199023255552000000000000000000000000000000000000000000000000000000000000000000000000000 * (8*x-3)^5 * (4-8*x)^13+
      192952534496684689255599986585742459318144115373699524711098756674894210397319/549755813888000000000000000000000000000000000000000000000000000000000000000000000000000 * (8*x-3)^6 * (4-8*x)^12+
      85806024971227037292824746556728021281331990091052823635602019066479077037431/137438953472000000000000000000000000000000000000000000000000000000000000000000000000000 * (8*x-3)^7 * (4-8*x)^11+
      30271120652168042121982975760573002006382566011407755921552060760457327887363/34359738368000000000000000000000000000000000000000000000000000000000000000000000000000 * (8*x-3)^8 * (4-8*x)^10+
      1706800413965815468575483710558691128745436533624546044167372198317787257771/1717986918400000000000000000000000000000000000000000000000000000000000000000000000000 * (8*x-3)^9 * (4-8*x)^9+
      1926986824160384442847151050048104522778761089247105662374490429678291051579/2147483648000000000000000000000000000000000000000000000000000000000000000000000000000 * (8*x-3)^10 * (4-8*x)^8+
      347667575802593035159604601529983622057674505183659181242483054103328950273/536870912000000000000000000000000000000000000000000000000000000000000000000000000000 * (8*x-3)^11 * (4-8*x)^7+
      49751293973252153019365084333592825443417378704181961063744795860130776597/134217728000000000000000000000000000000000000000000000000000000000000000000000000000 * (8*x-3)^12 * (4-8*x)^6+
      5571408695616875195233184693972894192839106949217187021538294731781367921/33554432000000000000000000000000000000000000000000000000000000000000000000000000000 * (8*x-3)^13 * (4-8*x)^5+
      95545047010439114498580004982027361597894972269938299825921500728765201/1677721600000000000000000000000000000000000000000000000000000000000000000000000000 * (8*x-3)^14 * (4-8*x)^4+
      30287712245447490508821074278448853294495173144638516494483360970421661/2097152000000000000000000000000000000000000000000000000000000000000000000000000000 * (8*x-3)^15 * (4-8*x)^3+
      1338658674336897681897597876033308272250169277467930571431957501510497/524288000000000000000000000000000000000000000000000000000000000000000000000000000 * (8*x-3)^16 * (4-8*x)^2+
      36877138888653476424031433493922322169372434162318067010141033598413/131072000000000000000000000000000000000000000000000000000000000000000000000000000 * (8*x-3)^17 * (4-8*x)^1+
      477862549062745539749288882663705909977116789314486199815346329669/32768000000000000000000000000000000000000000000000000000000000000000000000000000 * (8*x-3)^18 * (4-8*x)^0 := by
    unfold padeDen padeNum
    ring
  rw [h]
  positivity

theorem pade_lo4 (x : ℝ) (h0 : 1/2 ≤ x) (h1 : x ≤ 5/8) :
    0 ≤ 1e-15 * padeDen x ^ 3 - (4 * padeNum x ^ 3 - 3 * padeNum x * padeDen x ^ 2 - x * padeDen x ^ 3) := by
  have hu : 0 ≤ 8*x-4 := by linarith
  have hv : 0 ≤ 5-8*x := by linarith
  have h : 1e-15 * padeDen x ^ 3 - (4 * padeNum x ^ 3 - 3 * padeNum x * padeDen x ^ 2 - x * padeDen x ^ 3) =
      760491421223484570995814569395988227106600028848033686508346329669/32768000000000000000000000000000000000000000000000000000000000000000000000000000 * (8*x-4)^0 * (5-8*x)^18+
      60407507149522785714304178466597830011036409854470730089638837873923/131072000000000000000000000000000000000000000000000000000000000000000000000000000 * (8*x-4)^1 * (5-8*x)^17+
      2248917917151990169705732989666709415847619204502348589515373192245177/524288000000000000000000000000000000000000000000000000000000000000000000000000000 * (8*x-4)^2 * (5-8*x)^16+
      52104834720367281580375014303772760579630645503164431714158816547406051/2097152000000000000000000000000000000000000000000000000000000000000000000000000000 * (8*x-4)^3 * (5-8*x)^15+
      168286515892961069062082809965494067296786633421849692101178650824499801/1677721600000000000000000000000000000000000000000000000000000000000000000000000000 * (8*x-4)^4 * (5-8*x)^14+
      402121793478790618861757982151732861462675677110994095854967973794149207/1342177280000000000000000000000000000000000000000000000000000000000000000000000000 * (8*x-4)^5 * (5-8*x)^13+
      29458234733475405019052621595988196956421385716871969737093294285775833/42949672960000000000000000000000000000000000000000000000000000000000000000000000 * (8*x-4)^6 * (5-8*x)^12+
      5283253706517549231451464272900126241944544258277267468375035372881523467/4294967296000000000000000000000000000000000000000000000000000000000000000000000000 * (8*x-4)^7 * (5-8*x)^11+
      1203685100281238743072357939205868293699896459497378884668066052058698551/687194767360000000000000000000000000000000000000000000000000000000000000000000000 * (8*x-4)^8 * (5-8*x)^10+
      5482523059069124276248110532409871437471017725477168787717538565618659861/2748779069440000000000000000000000000000000000000000000000000000000000000000000000 * (8*x-4)^9 * (5-8*x)^9+
      4002391679057047301310851485336930803713786876554162505652866687051352243/2199023255552000000000000000000000000000000000000000000000000000000000000000000000 * (8*x-4)^10 * (5-8*x)^8+
      11677476842768082662137093342140611150698596246370947469488062995434243393/8796093022208000000000000000000000000000000000000000000000000000000000000000000000 * (8*x-4)^11 * (5-8*x)^7+
      5405342763081109171538131679436826050904925788464085778974377723364372187/7036874417766400000000000000000000000000000000000000000000000000000000000000000000 * (8*x-4)^12 * (5-8*x)^6+
      391540776232556124340689466542101572733689540225172096932154457341906257/1125899906842624000000000000000000000000000000000000000000000000000000000000000000 * (8*x-4)^13 * (5-8*x)^5+
      542600171013607480439516966433680910756433182005432395982606797503183587/4503599627370496000000000000000000000000000000000000000000000000000000000000000000 * (8*x-4)^14 * (5-8*x)^4+
      555374391698145226216552311392159773332585729123396607225513874179747089/18014398509481984000000000000000000000000000000000000000000000000000000000000000000 * (8*x-4)^15 * (5-8*x)^3+
      19778893477189389935023831596799518514441098963641810062728211330776143/3602879701896396800000000000000000000000000000000000000000000000000000000000000000 * (8*x-4)^16 * (5-8*x)^2+
      437857516355004113151900247092451934288562334946628537918276962488667/720575940379279360000000000000000000000000000000000000000000000000000000000000000 * (8*x-4)^17 * (5-8*x)^1+
      4542103862881077938426086860351403028073967495699770110790467268181/144115188075855872000000000000000000000000000000000000000000000000000000000000000 * (8*x-4)^18 * (5-8*x)^0 := by
    unfold padeDen padeNum
    ring
  rw [h]
  positivity

theorem pade_up4 (x : ℝ) (h0 : 1/2 ≤ x) (h1 : x ≤ 5/8) :
    0 ≤ 1e-15 * padeDen x ^ 3 + (4 * padeNum x ^ 3 - 3 * padeNum x * padeDen x ^ 2 - x * padeDen x ^ 3) := by
  have hu : 0 ≤ 8*x-4 := by linarith
  have hv : 0 ≤ 5-8*x := by linarith
  have h : 1e-15 * padeDen x ^ 3 + (4 * padeNum x ^ 3 - 3 * padeNum x * padeDen x ^ 2 - x * padeDen x ^ 3) =
      477862549062745539749288882663705909977116789314486199815346329669/32768000000000000000000000000000000000000000000000000000000000000000000000000000 * (8*x-4)^0 * (5-8*x)^18+
      31935068176381881299866165609651328867332383498967945763268837873923/131072000000000000000000000000000000000000000000000000000000000000000000000000000 * (8*x-4)^1 * (5-8*x)^17+
      1002597865902429213454359659902880727711445832360122326644648192245177/524288000000000000000000000000000000000000000000000000000000000000000000000000000 * (8*x-4)^2 * (5-8*x)^16+
      19729131280858138522236757588549732932468405063717959785792816547406051/2097152000000000000000000000000000000000000000000000000000000000000000000000000000 * (8*x-4)^3 * (5-8*x)^15+
      54873642394590818581037188032627368655486957246490529987186150824499801/1677721600000000000000000000000000000000000000000000000000000000000000000000000000 * (8*x-4)^4 * (5-8*x)^14+
      115497615972309240843342662242621435700739936713869902090675373794149207/1342177280000000000000000000000000000000000000000000000000000000000000000000000000 * (8*x-4)^5 * (5-8*x)^13+
      7702032631148915023238459606966655598861510388133208211071575085775833/42949672960000000000000000000000000000000000000000000000000000000000000000000000 * (8*x-4)^6 * (5-8*x)^12+
      1312562821674794973353908449858379725767792910827694004581060572881523467/4294967296000000000000000000000000000000000000000000000000000000000000000000000000 * (8*x-4)^7 * (5-8*x)^11+
      298689119155247282747490959305699112004855087070138111595952822058698551/687194767360000000000000000000000000000000000000000000000000000000000000000000000 * (8*x-4)^8 * (5-8*x)^10+
      1430417697552709510757285147091764744921022016349761044528185065618659861/2748779069440000000000000000000000000000000000000000000000000000000000000000000000 * (8*x-4)^9 * (5-8*x)^9+
      1150404079981793270369635270501200224370128437071948735125173337051352243/2199023255552000000000000000000000000000000000000000000000000000000000000000000000 * (8*x-4)^10 * (5-8*x)^8+
      3840253370127779471281795684029736416143295417020823059325952195434243393/8796093022208000000000000000000000000000000000000000000000000000000000000000000000 * (8*x-4)^11 * (5-8*x)^7+
      2090894823042229374879612969559412647050160647611019255689068503364372187/7036874417766400000000000000000000000000000000000000000000000000000000000000000000 * (8*x-4)^12 * (5-8*x)^6+
      181466305024697327589856399932013316937523738222589476645268353341906257/1125899906842624000000000000000000000000000000000000000000000000000000000000000000 * (8*x-4)^13 * (5-8*x)^5+
      304687969236935651467431480509731849158152267348316038821813497503183587/4503599627370496000000000000000000000000000000000000000000000000000000000000000000 * (8*x-4)^14 * (5-8*x)^4+
      380051645871865182781169229640663732246222851076128980509779874179747089/18014398509481984000000000000000000000000000000000000000000000000000000000000000000 * (8*x-4)^15 * (5-8*x)^3+
      16526467741842612212797327328656528489612180767180256158919330080776143/3602879701896396800000000000000000000000000000000000000000000000000000000000000000 * (8*x-4)^16 * (5-8*x)^2+
      446224021215497114760852992000278931353060627640851211606016337488667/720575940379279360000000000000000000000000000000000000000000000000000000000000000 * (8*x-4)^17 * (5-8*x)^1+
      5623677439041592019508622851293932855153135354155080742435514143181/144115188075855872000000000000000000000000000000000000000000000000000000000000000 * (8*x-4)^18 * (5-8*x)^0 := by
    unfold padeDen padeNum
    ring
  rw [h]
  positivity

theorem pade_lo5 (x : ℝ) (h0 : 5/8 ≤ x) (h1 : x ≤ 3/4) :
    0 ≤ 1e-15 * padeDen x ^ 3 - (4 * padeNum x ^ 3 - 3 * padeNum x * padeDen x ^ 2 - x * padeDen x ^ 3) := by
  have hu : 0 ≤ 8*x-5 := by linarith
  have hv : 0 ≤ 6-8*x := by linarith
  have h : 1e-15 * padeDen x ^ 3 - (4 * padeNum x ^ 3 - 3 * padeNum x * padeDen x ^ 2 - x * padeDen x ^ 3) =
      4542103862881077938426086860351403028073967495699770110790467268181/144115188075855872000000000000000000000000000000000000000000000000000000000000000 * (8*x-5)^0 * (6-8*x)^18+
      379721178963589915764795387770800610764751814279330082024007145783913/720575940379279360000000000000000000000000000000000000000000000000000000000000000 * (8*x-5)^1 * (6-8*x)^17+
      14837304798919183157119918554459156014917204706921441311715276910872053/3602879701896396800000000000000000000000000000000000000000000000000000000000000000 * (8*x-5)^2 * (6-8*x)^16+
      360743094335060822277104261685161753561899826276157297527454539734260591/18014398509481984000000000000000000000000000000000000000000000000000000000000000000 * (8*x-5)^3 * (6-8*x)^15+
      613783347458123286913956168532949173137500944000643719432355470646036439/9007199254740992000000000000000000000000000000000000000000000000000000000000000000 * (8*x-5)^4 * (6-8*x)^14+
      780791032080216684621634851362447475053941359546949577086205645666533863/4503599627370496000000000000000000000000000000000000000000000000000000000000000000 * (8*x-5)^5 * (6-8*x)^13+
      19417962420205060715421868030828932092820334948013360114082242053567701871/56294995342131200000000000000000000000000000000000000000000000000000000000000000000 * (8*x-5)^6 * (6-8*x)^12+
      78184374343066506944152155492105043458324123688449787868848815688939968847/140737488355328000000000000000000000000000000000000000000000000000000000000000000000 * (8*x-5)^7 * (6-8*x)^11+
      52379099903322482266382518898604915558804507331417421587767171734961850663/70368744177664000000000000000000000000000000000000000000000000000000000000000000000 * (8*x-5)^8 * (6-8*x)^10+
      148700933653965132906390188946317279647941494850611245823011844868342833371/175921860444160000000000000000000000000000000000000000000000000000000000000000000000 * (8*x-5)^9 * (6-8*x)^9+
      72003703122017078311470926343745349746879390642125631422731113052122628967/87960930222080000000000000000000000000000000000000000000000000000000000000000000000 * (8*x-5)^10 * (6-8*x)^8+
      737636986865302508181270372064429826480855039151664151628047439797455887573/1099511627776000000000000000000000000000000000000000000000000000000000000000000000000 * (8*x-5)^11 * (6-8*x)^7+
      250848126597502034702056475725849600729708023257874550971146151966976966861/549755813888000000000000000000000000000000000000000000000000000000000000000000000000 * (8*x-5)^12 * (6-8*x)^6+
      344278658659427847264654945255249040446423165369526760263927154022697899697/1374389534720000000000000000000000000000000000000000000000000000000000000000000000000 * (8*x-5)^13 * (6-8*x)^5+
      368399982460011873997521345730144918385585443584834392017414807263984298373/3435973836800000000000000000000000000000000000000000000000000000000000000000000000000 * (8*x-5)^14 * (6-8*x)^4+
      293847466428162550962830175932711078914488723758321162030098181427770310189/8589934592000000000000000000000000000000000000000000000000000000000000000000000000000 * (8*x-5)^15 * (6-8*x)^3+
      32702517455682123922643019082693326555170292713442770930325508039644470861/4294967296000000000000000000000000000000000000000000000000000000000000000000000000000 * (8*x-5)^16 * (6-8*x)^2+
      2257194207146969824365814154576863190908374554488069456208533266556531433/2147483648000000000000000000000000000000000000000000000000000000000000000000000000000 * (8*x-5)^17 * (6-8*x)^1+
      72561378991796081234318151584031208146293143310603373432894495585847863/1073741824000000000000000000000000000000000000000000000000000000000000000000000000000 * (8*x-5)^18 * (6-8*x)^0 := by
    unfold padeDen padeNum
    ring
  rw [h]
  positivity

theorem pade_up5 (x : ℝ) (h0 : 5/8 ≤ x) (h1 : x ≤ 3/4) :
    0 ≤ 1e-15 * padeDen x ^ 3 + (4 * padeNum x ^ 3 - 3 * padeNum x * padeDen x ^ 2 - x * padeDen x ^ 3) := by
  have hu : 0 ≤ 8*x-5 := by linarith
  have hv : 0 ≤ 6-8*x := by linarith
  have h : 1e-15 * padeDen x ^ 3 + (4 * padeNum x ^ 3 - 3 * padeNum x * padeDen x ^ 2 - x * padeDen x ^ 3) =
      5623677439041592019508622851293932855153135354155080742435514143181/144115188075855872000000000000000000000000000000000000000000000000000000000000000 * (8*x-5)^0 * (6-8*x)^18+
      566037917811989448750699121232628982574503736107063322032376208283913/720575940379279360000000000000000000000000000000000000000000000000000000000000000 * (8*x-5)^1 * (6-8*x)^17+
      26710648952544460601934248313406282843434844986808285545159919098372053/3602879701896396800000000000000000000000000000000000000000000000000000000000000000 * (8*x-5)^2 * (6-8*x)^16+
      784457294550131098437838698396436569495059984747681412902870289734260591/18014398509481984000000000000000000000000000000000000000000000000000000000000000000 * (8*x-5)^3 * (6-8*x)^15+
      1605582061420495992532499779737809106918050193307669443343687308146036439/9007199254740992000000000000000000000000000000000000000000000000000000000000000000 * (8*x-5)^4 * (6-8*x)^14+
      2430545704728240240437788276571337205576615801956526155806663036666533863/4503599627370496000000000000000000000000000000000000000000000000000000000000000000 * (8*x-5)^5 * (6-8*x)^13+
      70469664081673116899576846581507581344692768261813939074713593181067701871/56294995342131200000000000000000000000000000000000000000000000000000000000000000000 * (8*x-5)^6 * (6-8*x)^12+
      319939329779889405871321870511631657005641288925646103577199200138939968847/140737488355328000000000000000000000000000000000000000000000000000000000000000000000 * (8*x-5)^7 * (6-8*x)^11+
      230478994663397295727447804271027827549608845040793332425187711066211850663/70368744177664000000000000000000000000000000000000000000000000000000000000000000000 * (8*x-5)^8 * (6-8*x)^10+
      663244707807300456056154633912645032910673999985711339251438997305842833371/175921860444160000000000000000000000000000000000000000000000000000000000000000000000 * (8*x-5)^9 * (6-8*x)^9+
      305553961258140660962246706683534607747968636407343876978874175768372628967/87960930222080000000000000000000000000000000000000000000000000000000000000000000000 * (8*x-5)^10 * (6-8*x)^8+
      2809005504192231560262205163978796495311079393479132867260103356847455887573/1099511627776000000000000000000000000000000000000000000000000000000000000000000000000 * (8*x-5)^11 * (6-8*x)^7+
      817995102780945332799846681221463220906448643802801114586461709494476966861/549755813888000000000000000000000000000000000000000000000000000000000000000000000000 * (8*x-5)^12 * (6-8*x)^6+
      929971557543586847499410303280885324390863276173475118930773819497697899697/1374389534720000000000000000000000000000000000000000000000000000000000000000000000000 * (8*x-5)^13 * (6-8*x)^5+
      807072585962300452432045809907680366012434222592335645311693415701484298373/3435973836800000000000000000000000000000000000000000000000000000000000000000000000000 * (8*x-5)^14 * (6-8*x)^4+
      515770354335392193500400082751058432233412381755764313689429436177770310189/8589934592000000000000000000000000000000000000000000000000000000000000000000000000000 * (8*x-5)^15 * (6-8*x)^3+
      45711404581099954781709742128424648067320857116952868965914580199019470861/4294967296000000000000000000000000000000000000000000000000000000000000000000000000000 * (8*x-5)^16 * (6-8*x)^2+
      2507874046280464388523962486616872908863176340422296493954128477806531433/2147483648000000000000000000000000000000000000000000000000000000000000000000000000000 * (8*x-5)^17 * (6-8*x)^1+
      64171995720127236477026705535944592108184908595529804914790135960847863/1073741824000000000000000000000000000000000000000000000000000000000000000000000000000 * (8*x-5)^18 * (6-8*x)^0 := by
    unfold padeDen padeNum
    ring
  rw [h]
  positivity

theorem pade_lo6 (x : ℝ) (h0 : 3/4 ≤ x) (h1 : x ≤ 7/8) :
    0 ≤ 1e-15 * padeDen x ^ 3 - (4 * padeNum x ^ 3 - 3 * padeNum x * padeDen x ^ 2 - x * padeDen x ^ 3) := by
  have hu : 0 ≤ 8*x-6 := by linarith
  have hv : 0 ≤ 7-8*x := by linarith
  have h : 1e-15 * padeDen x ^ 3 - (4 * padeNum x ^ 3 - 3 * padeNum x * padeDen x ^ 2 - x * padeDen x ^ 3) =
      72561378991796081234318151584031208146293143310603373432894495585847863/1073741824000000000000000000000000000000000000000000000000000000000000000000000000000 * (8*x-6)^0 * (7-8*x)^18+
      2967225080262348024505092759473383795624731763875373430959870415624514703/2147483648000000000000000000000000000000000000000000000000000000000000000000000000000 * (8*x-6)^1 * (7-8*x)^17+
      56843567141604982727378491649175027115526437832611106071870971107955902041/4294967296000000000000000000000000000000000000000000000000000000000000000000000000000 * (8*x-6)^2 * (7-8*x)^16+
      676904512451245588647342593324853331431800095588927614960448082557782224019/8589934592000000000000000000000000000000000000000000000000000000000000000000000000000 * (8*x-6)^3 * (7-8*x)^15+
      1121715078699447136601525605828169597626660386941699660540604577672124185833/3435973836800000000000000000000000000000000000000000000000000000000000000000000000000 * (8*x-6)^4 * (7-8*x)^14+
      34303060790695925510070696347749254132089334977329556870637080973841957042911/34359738368000000000000000000000000000000000000000000000000000000000000000000000000000 * (8*x-6)^5 * (7-8*x)^13+
      160358747139144877394789327111535117925561394685377567833229874532055039564981/68719476736000000000000000000000000000000000000000000000000000000000000000000000000000 * (8*x-6)^6 * (7-8*x)^12+
      585345828705371625188800511187430451128010869434484278477020077363199160573647/137438953472000000000000000000000000000000000000000000000000000000000000000000000000000 * (8*x-6)^7 * (7-8*x)^11+
      1689771261624265021342606040828646607286094802357512057827001707983892582047943/274877906944000000000000000000000000000000000000000000000000000000000000000000000000000 * (8*x-6)^8 * (7-8*x)^10+
      776561113121120223739355121181450096895754238560706740630628665389493749182269/109951162777600000000000000000000000000000000000000000000000000000000000000000000000000 * (8*x-6)^9 * (7-8*x)^9+
      7110768742575104673312138524663315731952161915908988824508332906481118782765139/1099511627776000000000000000000000000000000000000000000000000000000000000000000000000000 * (8*x-6)^10 * (7-8*x)^8+
      10341156514288924710748369946050395224857452448191680884534666529345219496771929/2199023255552000000000000000000000000000000000000000000000000000000000000000000000000000 * (8*x-6)^11 * (7-8*x)^7+
      11837521805071381060273151237326946179630215513409591073803287542818557511113983/4398046511104000000000000000000000000000000000000000000000000000000000000000000000000000 * (8*x-6)^12 * (7-8*x)^6+
      10505095409421005886088899655593532177306365741383781688025820628896688630125557/8796093022208000000000000000000000000000000000000000000000000000000000000000000000000000 * (8*x-6)^13 * (7-8*x)^5+
      1411493284455028260094024051239681906045867944223332168683727381832660972097723/3518437208883200000000000000000000000000000000000000000000000000000000000000000000000000 * (8*x-6)^14 * (7-8*x)^4+
      3458578687528046199301394037490457626539713543722783933511989394498092439976837/35184372088832000000000000000000000000000000000000000000000000000000000000000000000000000 * (8*x-6)^15 * (7-8*x)^3+
      581715647270726560354576683990309426389130812815598378509413753253020573671131/35184372088832000000000000000000000000000000000000000000000000000000000000000000000000000 * (8*x-6)^16 * (7-8*x)^2+
      59989842480104368354100110615108339770627180024264076553271008576368971863051/35184372088832000000000000000000000000000000000000000000000000000000000000000000000000000 * (8*x-6)^17 * (7-8*x)^1+
      2867574919848073144028098456754812347259773321610036943474170491763273675607/35184372088832000000000000000000000000000000000000000000000000000000000000000000000000000 * (8*x-6)^18 * (7-8*x)^0 := by
    unfold padeDen padeNum
    ring
  rw [h]
  positivity

theorem pade_up6 (x : ℝ) (h0 : 3/4 ≤ x) (h1 : x ≤ 7/8) :
    0 ≤ 1e-15 * padeDen x ^ 3 + (4 * padeNum x ^ 3 - 3 * padeNum x * padeDen x ^ 2 - x * padeDen x ^ 3) := by
  have hu : 0 ≤ 8*x-6 := by linarith
  have hv : 0 ≤ 7-8*x := by linarith
  have h : 1e-15 * padeDen x ^ 3 + (4 * padeNum x ^ 3 - 3 * padeNum x * padeDen x ^ 2 - x * padeDen x ^ 3) =
      64171995720127236477026705535944592108184908595529804914790135960847863/1073741824000000000000000000000000000000000000000000000000000000000000000000000000000 * (8*x-6)^0 * (7-8*x)^18+
      2112509645568696637821960311971137722926137078455849459910761311374514703/2147483648000000000000000000000000000000000000000000000000000000000000000000000000000 * (8*x-6)^1 * (7-8*x)^17+
      32269014956899851257841668190469651745461522210093669808440096540330902041/4294967296000000000000000000000000000000000000000000000000000000000000000000000000000 * (8*x-6)^2 * (7-8*x)^16+
      303943918636639200877123712498973972646699423463250661154920189271782224019/8589934592000000000000000000000000000000000000000000000000000000000000000000000000000 * (8*x-6)^3 * (7-8*x)^15+
      396426907718589122219944320424293373091153906876242476183004888421624185833/3435973836800000000000000000000000000000000000000000000000000000000000000000000000000 * (8*x-6)^4 * (7-8*x)^14+
      9557556270227973175821492751901887589519213421742424971930523655658957042911/34359738368000000000000000000000000000000000000000000000000000000000000000000000000000 * (8*x-6)^5 * (7-8*x)^13+
      35745155615673357826052323170333007621874572336626137449623378284796539564981/68719476736000000000000000000000000000000000000000000000000000000000000000000000000000 * (8*x-6)^6 * (7-8*x)^12+
      108357744571212431833945449142353920900447441624864091496564842646165160573647/137438953472000000000000000000000000000000000000000000000000000000000000000000000000000 * (8*x-6)^7 * (7-8*x)^11+
      278415078193235162643060481334592303216154062610340054058651748392741832047943/274877906944000000000000000000000000000000000000000000000000000000000000000000000000000 * (8*x-6)^8 * (7-8*x)^10+
      125899759856846205676561284044331768881526420328636045788246093166082249182269/109951162777600000000000000000000000000000000000000000000000000000000000000000000000000 * (8*x-6)^9 * (7-8*x)^9+
      1268395060715166374505302907715876344525679421484289794068130913311298032765139/1099511627776000000000000000000000000000000000000000000000000000000000000000000000000000 * (8*x-6)^10 * (7-8*x)^8+
      2231958085303026366882651611879827876889034300742191649105427761195705496771929/2199023255552000000000000000000000000000000000000000000000000000000000000000000000000000 * (8*x-6)^11 * (7-8*x)^7+
      3294246073964516561292168805611131331602240770273657670882671453469719011113983/4398046511104000000000000000000000000000000000000000000000000000000000000000000000000000 * (8*x-6)^12 * (7-8*x)^6+
      3903202732149201722237133676962403592434114943524367113687666185295785630125557/8796093022208000000000000000000000000000000000000000000000000000000000000000000000000000 * (8*x-6)^13 * (7-8*x)^5+
      711677297626900567588820416819142276288643461706857572656125792136510472097723/3518437208883200000000000000000000000000000000000000000000000000000000000000000000000000 * (8*x-6)^14 * (7-8*x)^4+
      2381369392575361758171409397464727272902423927332522228093941777615846439976837/35184372088832000000000000000000000000000000000000000000000000000000000000000000000000000 * (8*x-6)^15 * (7-8*x)^3+
      547692073467440005255681183744223506199169771892646420630104509860529261171131/35184372088832000000000000000000000000000000000000000000000000000000000000000000000000000 * (8*x-6)^16 * (7-8*x)^2+
      77053345828549758593269139763246769175024408777878507084877202069232909363051/35184372088832000000000000000000000000000000000000000000000000000000000000000000000000000 * (8*x-6)^17 * (7-8*x)^1+
      4984703934629363617050973196507477892575495311014635569085196224745195550607/35184372088832000000000000000000000000000000000000000000000000000000000000000000000000000 * (8*x-6)^18 * (7-8*x)^0 := by
    unfold padeDen padeNum
    ring
  rw [h]
  positivity

theorem pade_lo7 (x : ℝ) (h0 : 7/8 ≤ x) (h1 : x ≤ 1) :
    0 ≤ 1e-15 * padeDen x ^ 3 - (4 * padeNum x ^ 3 - 3 * padeNum x * padeDen x ^ 2 - x * padeDen x ^ 3) := by
  have hu : 0 ≤ 8*x-7 := by linarith
  have hv : 0 ≤ 8-8*x := by linarith
  have h : 1e-15 * padeDen x ^ 3 - (4 * padeNum x ^ 3 - 3 * padeNum x * padeDen x ^ 2 - x * padeDen x ^ 3) =
      2867574919848073144028098456754812347259773321610036943474170491763273675607/35184372088832000000000000000000000000000000000000000000000000000000000000000000000000000 * (8*x-7)^0 * (8-8*x)^18+
      43242854634426264830911433828064904730724659553697253411799129127108880458801/35184372088832000000000000000000000000000000000000000000000000000000000000000000000000000 * (8*x-7)^1 * (8-8*x)^17+
      297016853894198800460369178610571030710787964815962385104391802615599019798881/35184372088832000000000000000000000000000000000000000000000000000000000000000000000000000 * (8*x-7)^2 * (8-8*x)^16+
      1241376792726648831630026401275922185603086776647027700809207014284495778362107/35184372088832000000000000000000000000000000000000000000000000000000000000000000000000000 * (8*x-7)^3 * (8-8*x)^15+
      90820197316288571935158159988946477516917644401696441717432354152909602663407/879609302220800000000000000000000000000000000000000000000000000000000000000000000000000 * (8*x-7)^4 * (8-8*x)^14+
      132622009417037990262576476737698183079007958891981531123322116303883400960911/549755813888000000000000000000000000000000000000000000000000000000000000000000000000000 * (8*x-7)^5 * (8-8*x)^13+
      35829446543023986838097839994428944063490114536146212649163581810120064920471/68719476736000000000000000000000000000000000000000000000000000000000000000000000000000 * (8*x-7)^6 * (8-8*x)^12+
      9616792422026477980186959369003671568196670003492314740998594019125258745847/8589934592000000000000000000000000000000000000000000000000000000000000000000000000000 * (8*x-7)^7 * (8-8*x)^11+
      2394547259538622468733842906645835750134661656736190108266665425833207674423/1073741824000000000000000000000000000000000000000000000000000000000000000000000000000 * (8*x-7)^8 * (8-8*x)^10+
      99998383002066383236661404515566795802644011443531361153142773635030653087/26843545600000000000000000000000000000000000000000000000000000000000000000000000000 * (8*x-7)^9 * (8-8*x)^9+
      82692131897023442986735217452095507461224935034224910680782344831697159523/16777216000000000000000000000000000000000000000000000000000000000000000000000000000 * (8*x-7)^10 * (8-8*x)^8+
      10569682120592960124040112028929459089860051042128063270505834720446993073/2097152000000000000000000000000000000000000000000000000000000000000000000000000000 * (8*x-7)^11 * (8-8*x)^7+
      1028760846459619649896003812904207691594630754794581710769471119427968161/262144000000000000000000000000000000000000000000000000000000000000000000000000000 * (8*x-7)^12 * (8-8*x)^6+
      74877897956117132542033354539404934791576239318988780936168844230213549/32768000000000000000000000000000000000000000000000000000000000000000000000000000 * (8*x-7)^13 * (8-8*x)^5+
      791045920302429461013391285409541424598258106910522527009940998303073/819200000000000000000000000000000000000000000000000000000000000000000000000000 * (8*x-7)^14 * (8-8*x)^4+
      143796024468513894634422074694736628803500725880614727691919581648413/512000000000000000000000000000000000000000000000000000000000000000000000000000 * (8*x-7)^15 * (8-8*x)^3+
      3249147268392138969922568320377043069491037788823714786350123804733/64000000000000000000000000000000000000000000000000000000000000000000000000000 * (8*x-7)^16 * (8-8*x)^2+
      35788101212190948673507764338424223692509786590386090308480762281/8000000000000000000000000000000000000000000000000000000000000000000000000000 * (8*x-7)^17 * (8-8*x)^1+
      52256228424821623638159706463465495834974468393432447368176729/1000000000000000000000000000000000000000000000000000000000000000000000000000 * (8*x-7)^18 * (8-8*x)^0 := by
    unfold padeDen padeNum
    ring
  rw [h]
  positivity

theorem pade_up7 (x : ℝ) (h0 : 7/8 ≤ x) (h1 : x ≤ 1) :
    0 ≤ 1e-15 * padeDen x ^ 3 + (4 * padeNum x ^ 3 - 3 * padeNum x * padeDen x ^ 2 - x * padeDen x ^ 3) := by
  have hu : 0 ≤ 8*x-7 := by linarith
  have hv : 0 ≤ 8-8*x := by linarith
  have h : 1e-15 * padeDen x ^ 3 + (4 * padeNum x ^ 3 - 3 * padeNum x * padeDen x ^ 2 - x * padeDen x ^ 3) =
      4984703934629363617050973196507477892575495311014635569085196224745195550607/35184372088832000000000000000000000000000000000000000000000000000000000000000000000000000 * (8*x-7)^0 * (8-8*x)^18+
      102395995818107331620565895311022434957693422418648373402189862021594130458801/35184372088832000000000000000000000000000000000000000000000000000000000000000000000000000 * (8*x-7)^1 * (8-8*x)^17+
      978517123289918746719726028056409824504543003785734148024419729050670019798881/35184372088832000000000000000000000000000000000000000000000000000000000000000000000000000 * (8*x-7)^2 * (8-8*x)^16+
      5767904112912135427380729477944998176990563788369796372884365567395023778362107/35184372088832000000000000000000000000000000000000000000000000000000000000000000000000000 * (8*x-7)^3 * (8-8*x)^15+
      586219744888057784922610445760514521494466849529516742671809930821037602663407/879609302220800000000000000000000000000000000000000000000000000000000000000000000000000 * (8*x-7)^4 * (8-8*x)^14+
      1088077398268441077910308174713177572409308659911788320464939374264139400960911/549755813888000000000000000000000000000000000000000000000000000000000000000000000000000 * (8*x-7)^5 * (8-8*x)^13+
      304777961990142130979489649690106248400537467083893567709645463368104064920471/68719476736000000000000000000000000000000000000000000000000000000000000000000000000000 * (8*x-7)^6 * (8-8*x)^12+
      65576205275043943931574112183096811594213383520033676246630260260917258745847/8589934592000000000000000000000000000000000000000000000000000000000000000000000000000 * (8*x-7)^7 * (8-8*x)^11+
      10919406699476666742472275172403174859346914751560672965352833704185207674423/1073741824000000000000000000000000000000000000000000000000000000000000000000000000000 * (8*x-7)^8 * (8-8*x)^10+
      280987025761257015023444739345589299830951333697688233925708563043030653087/26843545600000000000000000000000000000000000000000000000000000000000000000000000000 * (8*x-7)^9 * (8-8*x)^9+
      138068443573683897029108888401569672949453315202596922853905812879697159523/16777216000000000000000000000000000000000000000000000000000000000000000000000000000 * (8*x-7)^10 * (8-8*x)^8+
      10103452686078562120665591998024045928918360656381166117537407712446993073/2097152000000000000000000000000000000000000000000000000000000000000000000000000000 * (8*x-7)^11 * (8-8*x)^7+
      523974740663970541811144267550981740320340198534824349324519535427968161/262144000000000000000000000000000000000000000000000000000000000000000000000000000 * (8*x-7)^12 * (8-8*x)^6+
      17393402600611011818206972609556766282224031464237145708452300230213549/32768000000000000000000000000000000000000000000000000000000000000000000000000000 * (8*x-7)^13 * (8-8*x)^5+
      57522190544781821458356576523037580175481319463653878589812998303073/819200000000000000000000000000000000000000000000000000000000000000000000000000 * (8*x-7)^14 * (8-8*x)^4+
      1870718610093329617396136644977663225661207486882121384847581648413/512000000000000000000000000000000000000000000000000000000000000000000000000000 * (8*x-7)^15 * (8-8*x)^3+
      267133269823179392149709401225211491834621023280374678982123804733/64000000000000000000000000000000000000000000000000000000000000000000000000000 * (8*x-7)^16 * (8-8*x)^2+
      17468481636639292291259312491625483532847831889236063764480762281/8000000000000000000000000000000000000000000000000000000000000000000000000000 * (8*x-7)^17 * (8-8*x)^1+
      328630965441738899091385768036801613673375163111822903368176729/1000000000000000000000000000000000000000000000000000000000000000000000000000 * (8*x-7)^18 * (8-8*x)^0 := by
    unfold padeDen padeNum
    ring
  rw [h]
  positivity

theorem padeDen_pos (x : ℝ) (h0 : 0 ≤ x) : 0 < padeDen x := by unfold padeDen; positivity

theorem padeCos_eq (x : ℝ) : padeCos x = padeNum x / padeDen x := by
  unfold padeCos padeNum padeDen
  simp only
  rw [show (1.0 : ℝ) = 1 by norm_num]
  congr 1 <;> ring

theorem pade_both (x : ℝ) (hx0 : 0 ≤ x) (hx1 : x ≤ 1) :
    0 ≤ 1e-15 * padeDen x ^ 3 + (4 * padeNum x ^ 3 - 3 * padeNum x * padeDen x ^ 2 - x * padeDen x ^ 3) ∧
    0 ≤ 1e-15 * padeDen x ^ 3 - (4 * padeNum x ^ 3 - 3 * padeNum x * padeDen x ^ 2 - x * padeDen x ^ 3) := by
  by_cases h0 : x ≤ 1/8
  · exact ⟨pade_up0 x (by linarith) h0, pade_lo0 x (by linarith) h0⟩
  by_cases h1 : x ≤ 1/4
  · exact ⟨pade_up1 x (by linarith) h1, pade_lo1 x (by linarith) h1⟩
  by_cases h2 : x ≤ 3/8
  · exact ⟨pade_up2 x (by linarith) h2, pade_lo2 x (by linarith) h2⟩
  by_cases h3 : x ≤ 1/2
  · exact ⟨pade_up3 x (by linarith) h3, pade_lo3 x (by linarith) h3⟩
  by_cases h4 : x ≤ 5/8
  · exact ⟨pade_up4 x (by linarith) h4, pade_lo4 x (by linarith) h4⟩
  by_cases h5 : x ≤ 3/4
  · exact ⟨pade_up5 x (by linarith) h5, pade_lo5 x (by linarith) h5⟩
  by_cases h6 : x ≤ 7/8
  · exact ⟨pade_up6 x (by linarith) h6, pade_lo6 x (by linarith) h6⟩
  · exact ⟨pade_up7 x (by linarith) hx1, pade_lo7 x (by linarith) hx1⟩

/-- Approximate version of `IsCosThird`. -/
def IsCosThirdUpTo (δ : ℝ) (f : ℝ → ℝ) : Prop :=
  ∀ x, 0 ≤ x → x ≤ 1 → |4 * f x ^ 3 - 3 * f x - x| ≤ δ ∧ 3 ≤ 4 * f x ^ 2

/-- The code's rational function satisfies the triple-angle identity to `1e-15` on `[0,1]`. -/
theorem padeCos_upTo : IsCosThirdUpTo 1e-15 padeCos := by
  intro x hx0 hx1
  have hD := padeDen_pos x hx0
  have hD3 : 0 < padeDen x ^ 3 := by positivity
  obtain ⟨hu, hl⟩ := pade_both x hx0 hx1
  have e : (4 * padeCos x ^ 3 - 3 * padeCos x - x) * padeDen x ^ 3
      = 4 * padeNum x ^ 3 - 3 * padeNum x * padeDen x ^ 2 - x * padeDen x ^ 3 := by
    rw [padeCos_eq]; field_simp
  constructor
  · rw [abs_le]
    constructor
    · refine le_of_mul_le_mul_right ?_ hD3
      rw [e]; linarith
    · refine le_of_mul_le_mul_right ?_ hD3
      rw [e]; linarith
  · have h : 0.866025403784438713 ≤ padeCos x := by
      rw [padeCos_eq, le_div_iff₀ hD]
      have : 0 ≤ padeNum x - 0.866025403784438713 * padeDen x := by
        have e2 : padeNum x - 0.866025403784438713 * padeDen x =
            16666666666663967756947482514659079/100000000000000000000000000000000000 * x ^ 1+
              257173796709005170376554234082829/781250000000000000000000000000000 * x ^ 2+
              216544027790921980696577863937935861/1000000000000000000000000000000000000 * x ^ 3+
              135354970686035585899745862343924549/2500000000000000000000000000000000000 * x ^ 4+
              423087336718791383582043446781076523/100000000000000000000000000000000000000 * x ^ 5+
              390884982780803443/10000000000000000000000 * x ^ 6 := by
          unfold padeNum padeDen; ring
        rw [e2]; positivity
      linarith
    nlinarith

/-- **C55 (Padé).**  `Cos_Of_Acos_Divided_By_3` agrees with `cos(acos(x)/3)` to `2e-16`, for every
argument in `[0,1]`. -/
theorem padeCos_accurate (x : ℝ) (hx0 : 0 ≤ x) (hx1 : x ≤ 1) :
    |padeCos x - Real.cos (Real.arccos x / 3)| ≤ 2e-16 := by
  obtain ⟨h1, h2⟩ := padeCos_upTo x hx0 hx1
  obtain ⟨g1, g2⟩ := isCosThird_exact x hx0 hx1
  have hp : 0 ≤ padeCos x := by
    rw [padeCos_eq]
    have := padeDen_pos x hx0
    have : 0 ≤ padeNum x := by unfold padeNum; positivity
    positivity
  have hq : 0 ≤ Real.cos (Real.arccos x / 3) := by
    apply Real.cos_nonneg_of_mem_Icc
    have := Real.arccos_nonneg x
    have := Real.arccos_le_pi x
    constructor <;> linarith [Real.pi_pos]
  simp only at g1 g2
  generalize padeCos x = p at *
  generalize Real.cos (Real.arccos x / 3) = q at *
  have e : 4 * p ^ 3 - 3 * p - x = (p - q) * (4 * (p ^ 2 + p * q + q ^ 2) - 3) := by
    linear_combination g1
  have hpq : 3 ≤ 4 * (p * q) := by
    by_contra hc
    have : (4 * (p * q)) * (4 * (p * q)) < 3 * 3 :=
      mul_self_lt_mul_self (by positivity) (not_le.mp hc)
    nlinarith [mul_le_mul h2 g2 (by norm_num) (by positivity)]
  rw [e, abs_mul] at h1
  have h6 : 6 ≤ |4 * (p ^ 2 + p * q + q ^ 2) - 3| := le_trans (by linarith) (le_abs_self _)
  nlinarith [abs_nonneg (p - q)]

end NimbleSM.Tensor
