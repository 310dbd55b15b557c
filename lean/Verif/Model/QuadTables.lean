import Verif.Model.QuadGen
import Mathlib.Analysis.SpecialFunctions.Trigonometric.Inverse

/-!
# Tabulated quadrature sets and the quadrature factory

`src/angle/LevelSymmetric.cc`, `src/angle/AbuShumaysDoubleRange.cc`,
`src/angle/AbuShumaysQuadrupleRange.cc`, `src/angle/TabuchiYamamoto.cc`, `src/angle/TriGauss.hh` and
`src/angle/QuadratureFactory.cc`, `src/angle/UserQuadrature.hh`.

The tables are the decimal literals of the code, as exact rationals: every list of integers below is
divided by the power of ten named with it.  Where the code takes a square root or an inverse cosine of
a tabulated number the tables keep the number itself and the `Base` functions below take the root.
-/

namespace Detran.QuadTables

/-- Integers over a power of ten. -/
def dec (e : Nat) (l : List Int) : List ℚ := l.map fun (n : Int) => (n : ℚ) / 10 ^ e

/-! ## Level-symmetric sets -/

/-- A level-symmetric table: the cosines, the distinct weights and which weight each point takes. -/
structure Level where
  att : List ℚ
  wtt : List ℚ
  wp : List Nat

/-- `LevelSymmetric::set_quad_values`, LevelSymmetric.cc:55-376, by half the order (`order = 2 np`, :24);
    other orders are rejected.  (Order two stores its single weight directly, :67.) -/
def level : Nat → Option Level
  | 1 => some ⟨dec 24 [
      577350269189625764509149],
    dec 27 [
      1000000000000000000000000000],
    [
      0]⟩
  | 2 => some ⟨dec 24 [
      350021174581540677777041, 868890300722201205229788],
    dec 27 [
      333333333333333333333333000],
    [
      0, 0, 0]⟩
  | 3 => some ⟨dec 24 [
      266635401516704720331535, 681507726536546927403750, 926180935517489107558380],
    dec 27 [
      176126130863383433783565000, 157207202469949899549768000],
    [
      0, 1, 0, 1, 1, 0]⟩
  | 4 => some ⟨dec 24 [
      218217890235992381266097, 577350269189625764509149, 786795792469443145800830,
      951189731211341853132399],
    dec 27 [
      120987654320987654320988000, 90740740740740740740740700, 92592592592592592592592600],
    [
      0, 1, 1, 0, 1, 2, 1, 1, 1, 0]⟩
  | 5 => some ⟨dec 24 [
      189321326478010476671494, 508881755582618974382711, 694318887594384317279217,
      839759962236684758403029, 963490981110468484701598],
    dec 27 [
      89303147984356721470432500, 72529151712365524229623300, 45043767436408639049089200,
      53928114487836924354565000],
    [
      0, 1, 2, 1, 0, 1, 3, 3, 1, 2, 3, 2, 1, 1, 0]⟩
  | 6 => some ⟨dec 24 [
      167212652822713264084504, 459547634642594690016761, 628019096642130901034766,
      760021014833664062877138, 872270543025721502340662, 971637719251358378302376],
    dec 27 [
      70762589970091043976654900, 55881101564888807582896200, 37337673758828582465240200,
      50281901060057118138576500, 25851291655750391121829000],
    [
      0, 1, 2, 2, 1, 0, 1, 3, 4, 3, 1, 2, 4, 4, 2, 2, 3, 2, 1, 1, 0]⟩
  | 7 => some ⟨dec 24 [
      151985861461031912404799, 422156982304796966896263, 577350269189625764509149,
      698892086775901338963210, 802226255231412057244328, 893691098874356784901111,
      976627152925770351762946],
    dec 27 [
      57997040896996996406361100, 48900797636810487458256800, 22793534241187247325734500,
      39413200595007829449298500, 38099086144012171236589100, 25839407641890011961101200,
      8269579972622528252699080],
    [
      0, 1, 2, 3, 2, 1, 0, 1, 4, 5, 5, 4, 1, 2, 5, 6, 5, 2, 3, 5, 5, 3, 2, 4, 2, 1, 1, 0]⟩
  | 8 => some ⟨dec 24 [
      138956875067780344591732, 392289261444811712294197, 537096561300879079878296,
      650426450628771770509703, 746750573614681064580018, 831996556910044145168291,
      909285500943725291652116, 980500879011739882135849],
    dec 27 [
      48987239158038533500836700, 41329597869844023240550500, 20303200739365208074807000,
      26550075781349844601548400, 37907440795600400209932100, 13529504778675634437160000,
      32636937202685070131840900, 10376957838539908782592000],
    [
      0, 1, 2, 3, 3, 2, 1, 0, 1, 4, 5, 6, 5, 4, 1, 2, 5, 7, 7, 5, 2, 3, 6, 7, 6, 3, 3, 5, 5, 3,
      2, 4, 2, 1, 1, 0]⟩
  | 9 => some ⟨dec 24 [
      129344504545924818514086, 368043816053393605686086, 504165151725164054411848,
      610662549934881101060239, 701166884252161909657019, 781256199495913171286914,
      853866206691488372341858, 920768021061018932899055, 983127661236087115272518],
    dec 27 [
      42264644884382174853582500, 37612747382728147153238000, 12269135163740593103718700,
      32418835255881504871564600, 6644386146190738232640820, 31209383843655137006886400,
      16012725269194027564164500, 20048459530857287588506600, 111409402059638628382279,
      16379703852242524049456700],
    [
      0, 1, 2, 3, 4, 3, 2, 1, 0, 1, 5, 6, 7, 7, 6, 5, 1, 2, 6, 8, 9, 8, 6, 2, 3, 7, 9, 9, 7, 3,
      4, 7, 8, 7, 4, 3, 6, 6, 3, 2, 5, 2, 1, 1, 0]⟩
  | 10 => some ⟨dec 24 [
      120603343036693597409418, 347574292315847257336779, 476519266143665680817278,
      577350269189625764509149, 663020403653288019308783, 738822561910371432904974,
      807540401661143067193530, 870852583760463975580977, 929863938955324566667817,
      985347485558646574628509],
    dec 27 [
      37021049060448134232029500, 33284216537631484100391000, 11173896596509251961402100,
      24517747695935928541898700, 13592432965004178956708100, 31802906593658597150196000,
      6854924014025077810626340, 30810548175529932722789300, -139484716502602877593527,
      5446751873307762238794370, 4745646926423799712383960, 27729854100906404932524600],
    [
      0, 1, 2, 3, 4, 4, 3, 2, 1, 0, 1, 5, 6, 7, 8, 7, 6, 5, 1, 2, 6, 9, 10, 10, 9, 6, 2, 3, 7,
      10, 11, 10, 7, 3, 4, 8, 10, 10, 8, 4, 4, 7, 9, 7, 4, 3, 6, 6, 3, 2, 5, 2, 1, 1, 0]⟩
  | 11 => some ⟨dec 24 [
      113888641383070838173488, 330271760593086736334651, 452977095507524183904005,
      548905330875560154226714, 630401360620980621392149, 702506006153654989703184,
      767869456282208576047898, 828089557415325768804621, 884217805921983001958912,
      936989829997455780115072, 986944149751056870330152],
    dec 27 [
      32927771855255230805138100, 30956932816503153854302500, 5771059532206430223918290,
      31683454837995277591941800, -6693503041409924941036960, 36838162268768246652663400,
      27313969800662953745540400, 10096271643503043781705500, 19518106755584939222419900,
      11722427547094978686492500, -4427731552338932399964310, 15621478507880343278132400,
      -10177422131573829714327000, 13506125893843180848531000],
    [
      0, 1, 2, 3, 4, 5, 4, 3, 2, 1, 0, 1, 6, 7, 8, 9, 9, 8, 7, 6, 1, 2, 7, 10, 11, 12, 11, 10,
      7, 2, 3, 8, 11, 13, 13, 11, 8, 3, 4, 9, 12, 13, 12, 9, 4, 5, 9, 11, 11, 9, 5, 4, 8, 10,
      8, 4, 3, 7, 7, 3, 2, 6, 2, 1, 1, 0]⟩
  | 12 => some ⟨dec 24 [
      107544208775147285552086, 315151630853896874875332, 432522073446742487657060,
      524242441631224399254880, 602150256328323868809286, 671073561381361944701265,
      733549261041044861004094, 791106384731321324814121, 844750913317919895113069,
      895186516397704814461305, 942928254285052510917188, 988366574868785749937406],
    dec 27 [
      29528494203073654602527200, 28153065174369502683493200, 5197301280721749964738240,
      25989746778624292044893300, 1463781601533444298449480, 16660965126903721236805500,
      28134334409384919487510800, 2143643119092479099529680, 33194341764808301961129400,
      -14248390482240075374138100, 41681252999823158061493400, 3235228989644750225785980,
      813552611571786631179287, 2284036106978488136603690, 33897192523662864584811200,
      -6447255956983394994162620],
    [
      0, 1, 2, 3, 4, 5, 5, 4, 3, 2, 1, 0, 1, 6, 7, 8, 9, 10, 9, 8, 7, 6, 1, 2, 7, 11, 12, 13,
      13, 12, 11, 7, 2, 3, 8, 12, 14, 15, 14, 12, 8, 3, 4, 9, 13, 15, 15, 13, 9, 4, 5, 10, 13,
      14, 13, 10, 5, 5, 9, 12, 12, 9, 5, 4, 8, 11, 8, 4, 3, 7, 7, 3, 2, 6, 2, 1, 1, 0]⟩
  | _ => none

/-- One stored point of the first octant: μ, η, ξ² and the weight before the scaling by π (2-D) or π/2
    (3-D). -/
structure Pt where
  mu : ℚ
  eta : ℚ
  xi2 : ℚ
  w : ℚ
deriving DecidableEq

/-- The double loop over levels, LevelSymmetric.cc:38-49: `(i, j)` with `i ≤ n-1`, `j ≤ n-(i+1)`. -/
def pairs (n : Nat) : List (Nat × Nat) :=
  (List.range n).flatMap fun i => (List.range (n - i)).map fun j => (i, j)

/-- `LevelSymmetric::LevelSymmetric`, LevelSymmetric.cc:19-53: the `m`-th pair of the double loop takes
    the weight `wtt[wp[m]]`.  The number of angles per octant is `2np(2np+2)/8`, and the weights are
    filled for that many. -/
def levelSymmetric (np : Nat) : Option (List Pt) := do
  let t ← level np
  pure ((pairs np).zipIdx.map fun ((i, j), m) =>
    let mu := t.att.getD i 0
    let eta := t.att.getD j 0
    ⟨mu, eta, 1 - mu * mu - eta * eta, t.wtt.getD (t.wp.getD m 0) 0⟩)

/-- The factor of the weights in units of π, LevelSymmetric.cc:34-35. -/
def levelScale (dim : Nat) : ℚ := if dim = 3 then 1 / 2 else 1

/-! ## Abu-Shumays sets -/

/-- `AbuShumaysDoubleRange::get_theta`, AbuShumaysDoubleRange.cc:37-340: polar sines and their weights
    for `N` angles in a half space. -/
def asdr : Nat → Option (List ℚ × List ℚ)
  | 1 => some (dec 16 [
      7853981633974483],
    dec 0 [
      2])
  | 2 => some (dec 16 [
      3993735638823956, 9144479484659753],
    dec 16 [
      5010918381152245, 14989081618847760])
  | 3 => some (dec 16 [
      2311522961278847, 6399711962340753, 9544967673433067],
    dec 16 [
      1706016479452537, 6829125158656247, 11464858361891220])
  | 4 => some (dec 16 [
      1492491465731340, 4452174134055993, 7657198751837065, 9718403838896060],
    dec 17 [
      7210020864182995, 33020195674768540, 67767883313379920, 92001900147668550])
  | 5 => some (dec 16 [
      1039469054750266, 3218997600306228, 5925641316724047, 8367574981862629, 9808766137326722],
    dec 17 [
      3530233934872431, 17452600064179640, 39877206438856430, 62547195971639010,
      76592763590452490])
  | 6 => some (dec 16 [
      764222577018977, 2418380224706412, 4624149310771195, 6917637890192200, 8801887364309769,
      9861717557161557],
    dec 17 [
      1920436605371306, 9964572033500919, 24339440848003600, 41549493554107500,
      56708942603179770, 65517114355836900])
  | 7 => some (dec 17 [
      5849788427341292, 18767440992041980, 36738087383424050, 56914132986884450,
      76007398923149000, 90849901890320580, 98953784621666490],
    dec 17 [
      1130288664498013, 6059668882540333, 15485770233502820, 27953568373499580,
      40835903908312800, 51333899713635390, 57200900224011060])
  | 8 => some (dec 17 [
      4619235546732977, 14957859399296990, 29741416854143060, 47140335357596240,
      64945760434729510, 80856132753674360, 92791428344778910, 99180947323910860],
    dec 18 [
      7070596107672168, 38795623064027650, 102401624143120400, 192304211325994400,
      294382104243228800, 391238834810610300, 466421985333431600, 507385020971914800])
  | 9 => some (dec 16 [
      373871754313704, 1218673184482112, 2449791366335987, 3944837657444153, 5551788717532553,
      7104369578733888, 8440015993098882, 9417816602325884, 9934143180700493],
    dec 18 [
      4643065076049817, 25913705501367500, 70062448944174090, 135495102192722200,
      214638759274328200, 296784472963560400, 370610275425400900, 426078293141116300,
      455773877481280500])
  | 10 => some (dec 17 [
      3087344674320983, 10112566919081640, 20491203348741690, 33375593010183910,
      47692469846783000, 62229490841524280, 75740900676467040, 87059391908863690,
      95201924540532050, 99458989787116660],
    dec 17 [
      317192548389715, 1793256207590737, 4938267089469711, 9768026105928111, 15882772986330080,
      22623496885957320, 29226033258076000, 34944521425683550, 39143378370197000,
      41363055122377780])
  | 11 => some (dec 17 [
      2592143483321320, 8521935262972822, 17372128596105050, 28537885544021150,
      41243029305686680, 54590838931529200, 67628159284890820, 79416158041306480,
      89101040770909770, 95978634571398770, 99547668284972560],
    dec 18 [
      2239168223242646, 12786090202794520, 35719844077316060, 71920196061027080,
      119365625806642600, 174001551347078200, 230696007694786200, 284056841745076800,
      329067518519319900, 361564499644866300, 378582656677849700])
  | 12 => some (dec 17 [
      2206987544161146, 7276548794207686, 14902404712764920, 24641782134648140,
      35920906381801650, 48065984243007490, 60343296073033130, 72004839663827380,
      82335785358946170, 90700159208201760, 96581559208198290, 99616205959177040],
    dec 18 [
      1625008098812313, 9352495000167818, 26428497687233870, 53976086578416660,
      91073471918087350, 135237581574190600, 183023151704272300, 230570951759005500,
      274053032342726200, 310018449507795900, 335655871269934700, 348985402559356800])
  | 13 => some (dec 17 [
      1901578627811810, 6283891176988711, 12916694897339780, 21468590460482440,
      31506985203462820, 42517646891134800, 53930501118371240, 65149701797280650,
      75585839507548340, 84688141504228900, 91974671995416070, 97058773642291690,
      99670270098897320],
    dec 18 [
      1207468708743215, 6993516363714714, 19946545409213090, 41213796102273480,
      70484458723466820, 106257389343894400, 146219412010474500, 187616725219471200,
      227570427508843800, 263329024519036100, 292465982350559700, 313031438926609400,
      323663814813699600])
  | 14 => some (dec 17 [
      1655357842785945, 5480298212338539, 11298132288938690, 18855980241829520,
      27821896695154780, 37797589054591060, 48335461423266600, 58958844204950590,
      69184167508139070, 78543771009080730, 86608092418047460, 93006085066557520,
      97442854424299170, 99713666426425280],
    dec 19 [
      9156938974039617, 53310120209527450, 153210137879176900, 319619102567920700,
      552773674115123300, 843839807369699600, 1177312073753468000, 1533547657512768000,
      1891023104848334000, 2228197138483984000, 2525002447442476000, 2764024505279778000,
      2931415140502020000, 3017568151061684000])
  | 15 => some (dec 17 [
      1453980971214771, 4820858869899936, 9962575637202815, 16682865255395180,
      24722970790315800, 33770139390317840, 43469159625139050, 53436247197633810,
      63274543933606940, 72590421428536390, 81009783654408640, 88193610610288140,
      93852055746001490, 97756495407099220, 99749027384504730],
    dec 19 [
      7068830110205541, 41329095752631260, 119530809731195600, 251368778436047400,
      438844815813132500, 677027324411788600, 955575306948458900, 1260476011692554000,
      1575670106423901000, 1884437898269261000, 2170534569913444000, 2419105398978403000,
      2617415950418412000, 2755422071013228000, 2826193032087338000])
  | _ => none

/-- `AbuShumaysQuadrupleRange::get_phi`, AbuShumaysQuadrupleRange.cc:34-570: cosines of the azimuths of
    a quadrant and their weights, in the order of the code (decreasing azimuth). -/
def asqr : Nat → Option (List ℚ × List ℚ)
  | 2 => some (dec 16 [
      3288613193063390, 9443782254288237],
    dec 16 [
      7853981633974483, 7853981633974483])
  | 4 => some (dec 16 [
      1119194178021025, 4990088153604911, 8665969087139183, 9937172857099943],
    dec 16 [
      2790495092691071, 5063486541283412, 5063486541283412, 2790495092691071])
  | 6 => some (dec 17 [
      5498238339818787, 26864506059793310, 56587133934472280, 82449355807562840,
      96323923893097960, 99848732466459220],
    dec 16 [
      1389912271015858, 2849847975948065, 3614221387010560, 3614221387010560, 2849847975948065,
      1389912271015858])
  | 8 => some (dec 17 [
      3248697884632087, 16395125694006860, 37003793854713300, 60061866630882130,
      79953562627403460, 92901664357307840, 98646844113117560, 99947215879455030],
    dec 17 [
      8261058789185801, 17801081968193610, 24536501314863010, 27941174267502410,
      27941174267502410, 24536501314863010, 17801081968193610, 8261058789185801])
  | 10 => some (dec 17 [
      2140636649836879, 10967820807897250, 25540627707062090, 43599657902494760,
      62175878370575140, 78320879392710130, 89994832244887410, 96683381903661460,
      99396714768275190, 99977085748352230],
    dec 16 [
      545988342771959, 1206689353273136, 1734506495359569, 2093517367248734, 2273280075321085,
      2273280075321085, 2093517367248734, 1734506495359569, 1206689353273136, 545988342771959])
  | 12 => some (dec 17 [
      1515427633810212, 7829331784823644, 18538568241609650, 32505139004795260,
      48133410172030900, 63593783485110130, 77174028675772360, 87653721114457160,
      94569635392545200, 98266583778775900, 99693036686637000, 99988516736106670],
    dec 17 [
      3871995573990722, 8683898824818842, 12792201610797480, 15959628880032370,
      18085387048648770, 19146704401456640, 19146704401456640, 18085387048648770,
      15959628880032370, 12792201610797480, 8683898824818842, 3871995573990722])
  | 14 => some (dec 17 [
      1128664599103795, 5860802825933166, 14015929779803010, 24965354233490430,
      37801452941318050, 51410440836211620, 64609528168939110, 76325676346738410,
      85772761253362860, 92579966275244000, 96833522542538650, 99012896697388020,
      99828107215530910, 99993630378253240],
    dec 17 [
      2886965398857025, 6534816595720066, 9778151915986106, 12459286022079500,
      14494986258638280, 15853869983153890, 16531740165309960, 16531740165309960,
      15853869983153890, 14494986258638280, 12459286022079500, 9778151915986106,
      6534816595720066, 2886965398857025])
  | 16 => some (dec 18 [
      8729657082861998, 45481386404467080, 109465717949563700, 196944891135950100,
      302448274223271300, 419021114482044900, 538777013409076200, 653724513892759400,
      756732621165280100, 842448413745314200, 907976489573504900, 953165799543481800,
      980414560201677500, 993990571682542000, 998965186325693500, 999961895817643500],
    dec 17 [
      2234563433970334, 5089471201185089, 7696546183192337, 9948832189094168,
      11781637255280860, 13163184959679090, 14083320130249880, 14542260987093070,
      14542260987093070, 14083320130249880, 13163184959679090, 11781637255280860,
      9948832189094168, 7696546183192337, 5089471201185089, 2234563433970334])
  | 18 => some (dec 18 [
      6952010366745025, 36303298223219550, 87758429964046200, 158961605902626400,
      246442243456333900, 345702237173959700, 451446419611386800, 557969806133386500,
      659662682059166400, 751561804443591400, 829861250718137300, 892298229416633800,
      938344266894043200, 969157479793768600, 987284765328047600, 996141786077788000,
      999340818008609100, 999975834483944300],
    dec 17 [
      1780448256851573, 4072837739441321, 6205518747222860, 8104138647658412, 9719456818914889,
      11023039945940470, 12002139064559030, 12653626965268890, 12978610153887390,
      12978610153887390, 12653626965268890, 12002139064559030, 11023039945940470,
      9719456818914889, 8104138647658412, 6205518747222860, 4072837739441321, 1780448256851573])
  | 20 => some (dec 18 [
      5666555435801935, 29639792746951000, 71874247632014110, 130813597458632200,
      204157937609880900, 288894178634419200, 381394748426209100, 477603342157135600,
      573299423760638800, 664414798308906200, 747364018258930800, 819345940806274700,
      878575578741142800, 924412270511868900, 957361036156759600, 978937963566067800,
      991406981375424300, 997413701794462000, 999560644826474600, 999983944945864100],
    dec 17 [
      1451779509317350, 3331533618587398, 5104054858395153, 6716362589103700, 8131097620559026,
      9324211470049753, 10282668194009350, 11001233183169450, 11479201521819850,
      11717673774733800, 11717673774733800, 11479201521819850, 11001233183169450,
      10282668194009350, 9324211470049753, 8131097620559026, 6716362589103700,
      5104054858395153, 3331533618587398, 1451779509317350])
  | 22 => some (dec 18 [
      4707114717103505, 24651733767350760, 59916704095684390, 109433482214328500,
      171620677535047600, 244394048136806600, 325209237748752600, 411152971480375600,
      499083544226265500, 585811420064988200, 668303327234281000, 743888877996969100,
      810447395036495800, 866553873618108800, 911566362939559900, 945642084344217000,
      969676002196251300, 985163104791491500, 993994121195113600, 998203380364097000,
      999696099833476200, 999988921474153100],
    dec 17 [
      1206308084642689, 2774821193462954, 4268848001641819, 5649746567994538, 6889030401909524,
      7966885558279603, 8871167329713092, 9595714699102763, 10138411313582270,
      10499375173136580, 10679508016279000, 10679508016279000, 10499375173136580,
      10138411313582270, 9595714699102763, 8871167329713092, 7966885558279603,
      6889030401909524, 5649746567994538, 4268848001641819, 2774821193462954, 1206308084642689])
  | 24 => some (dec 18 [
      3972127715469235, 20822196842109200, 50697848521210220, 92841562350892040,
      146131423339847900, 209083931363273100, 279872257356901800, 356371847593603100,
      436236354205779200, 517001398908616200, 596209175481198200, 671543718038901000,
      740964934907509000, 802829134419043000, 855984552154146000, 899832119491880500,
      934344211863444700, 960037249049198200, 977897698967370600, 989265185434456800,
      995680894815324600, 998714037227534100, 999783194557034200, 999992111069588400],
    dec 17 [
      1018170331312922, 2346349353303599, 3621292193062666, 4814205277021821, 5903176230890425,
      6872060753743357, 7710072080607362, 8410905852056142, 8971603507554962, 9391384633073917,
      9670612366917621, 9809983760200038, 9809983760200038, 9670612366917621, 9391384633073917,
      8971603507554962, 8410905852056142, 7710072080607362, 6872060753743357, 5903176230890425,
      4814205277021821, 3621292193062666, 2346349353303599, 1018170331312922])
  | 26 => some (dec 18 [
      3396696521564986, 17818920509293340, 43444845496561140, 79722747582880120,
      125835125093047300, 180699198021927000, 242974259845800500, 311084725533936200,
      383261856234825800, 457604099867599700, 532153312472410400, 604982005637240700,
      674285343702594300, 738470903467343300, 796239143006133300, 846648009520273500,
      889156053673574100, 923639729307610400, 950382182881958000, 970032736072543800,
      983538407910048200, 992051168686785600, 996817076257141800, 999055826968533300,
      999841230432053900, 999994231209730700],
    dec 17 [
      870818485865091, 2009672209559701, 3109543899569998, 4148557359431433, 5109681624694140,
      5979803209497304, 6749583467970308, 7413013546424966, 7966752788841578, 8409386224353523,
      8740711539780842, 8961127788931235, 9071164194824712, 9071164194824712, 8961127788931235,
      8740711539780842, 8409386224353523, 7966752788841578, 7413013546424966, 6749583467970308,
      5979803209497304, 5109681624694140, 4148557359431433, 3109543899569998, 2009672209559701,
      870818485865091])
  | 28 => some (dec 18 [
      2937783068161103, 15420573280353160, 37638223441602840, 69179530542763720,
      109434942230865800, 157596521803313200, 212660430508860300, 273438568734602900,
      338581819946688800, 406615605026669500, 475986868966497500, 545120257150763100,
      612480204714207400, 676635001490985800, 736318595960535000, 790485925765438600,
      838357862278326800, 879452386756366900, 913599337646867800, 940936953893079900,
      961889468249014500, 977126164472012400, 987503588001328600, 993993960453949200,
      997604226411397500, 999291431033089600, 999881095890759000, 999995684706011300],
    dec 18 [
      7532680050608221, 17403938708366620, 26983743879009450, 36102942864091770,
      44627724096767480, 52451430798234760, 59494301834338350, 65701301519979850,
      71038298995897420, 75487382625483030, 79042029691990180, 81702662241455890,
      83472918557381300, 84356807533843980, 84356807533843980, 83472918557381300,
      81702662241455890, 79042029691990180, 75487382625483030, 71038298995897420,
      65701301519979850, 59494301834338350, 52451430798234760, 44627724096767480,
      36102942864091770, 26983743879009450, 17403938708366620, 7532680050608221])
  | 30 => some (dec 18 [
      2565935816040464, 13475165547827260, 32918780873499940, 60584155801936660,
      96007621307819300, 138574497310741300, 187519447029330900, 241932253085156400,
      300770887782924000, 362882724134817700, 427033788130143100, 491945085489816800,
      556334321345220900, 618960810559949200, 678671058908321100, 734442369284519300,
      785421870710875100, 830958556664141100, 870626230286233000, 904235668283009100,
      931834818261527400, 953696426050906300, 970293143806107600, 982260890489799500,
      990352012516294800, 995380598892109400, 998163092919071300, 999458030067197200,
      999909205834939100, 999996707981275300],
    dec 18 [
      6579962619041378, 15216967768450860, 23632090886319910, 31692445212910830,
      39291761318974250, 46342963328078710, 52778375096804570, 58548752699264120,
      63621106270947980, 67975759143416770, 71603106056620010, 74500445327537100,
      76669146036576260, 78112305914899500, 78832975717606060, 78832975717606060,
      78112305914899500, 76669146036576260, 74500445327537100, 71603106056620010,
      67975759143416770, 63621106270947980, 58548752699264120, 52778375096804570,
      46342963328078710, 39291761318974250, 31692445212910830, 23632090886319910,
      15216967768450860, 6579962619041378])
  | _ => none

/-! ## Base sets on [-1, 1] from a table of one half -/

section
variable {K : Type} [Zero K] [Neg K]

/-- The loop of AbuShumaysDoubleRange.cc:24-33 and TriGauss.hh:108-114: entry `i` is stored negated at
    `i` and as it is at the mirrored position. -/
def mirror (x w : List K) : List K × List K :=
  (List.range x.length).foldl (fun (q : List K × List K) i =>
    ((q.1.set i (-(x.getD i 0))).set (2 * x.length - i - 1) (x.getD i 0),
     (q.2.set i (w.getD i 0)).set (2 * x.length - i - 1) (w.getD i 0)))
    (List.replicate (2 * x.length) 0, List.replicate (2 * x.length) 0)

/-- The loop of TabuchiYamamoto.cc:41-48. -/
def mirrorTY (x w : List K) : List K × List K :=
  (List.range x.length).foldl (fun (q : List K × List K) i =>
    ((q.1.set i (-(x.getD (x.length - i - 1) 0))).set (i + x.length) (x.getD i 0),
     (q.2.set i (w.getD (x.length - i - 1) 0)).set (i + x.length) (w.getD i 0)))
    (List.replicate (2 * x.length) 0, List.replicate (2 * x.length) 0)

end

/-- The tables of `TabuchiYamamoto::build_impl`, TabuchiYamamoto.cc:26-39: polar cosines and weights for
    one to five points in a half space; more are rejected (:22). -/
def ty : Nat → Option (List ℚ × List ℚ)
  | 1 => some (dec 14 [60241373004273], dec 14 [100000000000000])
  | 2 => some (dec 14 [43609630817057, 93143802262953], dec 14 [78714600000000, 21285400000000])
  | 3 => some (dec 14 [35999560258981, 84313177033664, 98601645224408],
      dec 14 [67014800000000, 28361900000000, 4623300000000])
  | 4 => some (dec 14 [31419680881426, 77373902177668, 95657266606026, 99649075402511],
      dec 14 [59426914000000, 30817276000000, 8582263000000, 1173545000000])
  | 5 => some (dec 14 [27848958159945, 71163434521951, 92067315806606, 98603002556249,
        99890322247706],
      dec 14 [53269822000000, 31699288000000, 11831753000000, 2830905000000, 368232000000])
  | _ => none

/-- The tables of `TriGauss::build_impl`, TriGauss.hh:40-106: polar cosines (decreasing) and weights for
    one to six points in a half space; more throw. -/
def tg : Nat → Option (List ℚ × List ℚ)
  | 1 => some (dec 25 [7071067811865475244008445], dec 1 [10])
  | 2 => some (dec 15 [970028106554334, 480049092416837], dec 15 [144806658914468, 855193341085532])
  | 3 => some (dec 15 [983720409069126, 707106781186548, 179705750550371],
      dec 15 [79338724686562, 486356182323044, 434305092990394])
  | 4 => some (dec 16 [9937172857099943, 8665969087139184, 4990088153604910, 1119194178021024],
      dec 17 [3123105861536087, 25267244205596260, 43880017839907360, 27729632092960300])
  | 5 => some (dec 15 [997101416593042, 932984999374027, 707106781186548, 359915255224124,
        76083934100109],
      dec 15 [14556433410266, 134916240529173, 310026530523421, 349734629912457, 190766165624683])
  | 6 => some (dec 15 [998487324664592, 963239238930980, 824493558075628, 565871339344723,
        268645060597933, 54982383398188],
      dec 15 [7642068937484, 76559758219347, 204518429695601, 297990225104937, 274508539542121,
        138780978500511])
  | _ => none

section
variable (N : Nat)

/-- `AbuShumaysDoubleRange::build_impl`, AbuShumaysDoubleRange.cc:17-34, for `2 N` points. -/
noncomputable def asdrBase : Option (List ℝ × List ℝ) :=
  (asdr N).map fun t => mirror (t.1.map fun (v : ℚ) => Real.sqrt (1 - (v : ℝ) * (v : ℝ)))
    (t.2.map fun (v : ℚ) => (1 / 2) * (v : ℝ))

/-- `TabuchiYamamoto::build_impl`, TabuchiYamamoto.cc:16-50, for `2 N` points. -/
noncomputable def tyBase : Option (List ℝ × List ℝ) :=
  (ty N).map fun t => mirrorTY (t.1.map fun (v : ℚ) => (v : ℝ)) (t.2.map fun (v : ℚ) => (v : ℝ))

/-- `TriGauss::build_impl`, TriGauss.hh:27-115, for `2 N` points. -/
noncomputable def tgBase : Option (List ℝ × List ℝ) :=
  (tg N).map fun t => mirror (t.1.map fun (v : ℚ) => (v : ℝ)) (t.2.map fun (v : ℚ) => (v : ℝ))

/-- `AbuShumaysQuadrupleRange::build_impl`, AbuShumaysQuadrupleRange.cc:18-31: angles in the first
    quadrant. -/
noncomputable def asqrBase : Option (List ℝ × List ℝ) :=
  (asqr N).map fun t => (((List.range N).foldl (fun q i =>
      q.set (N - i - 1) (Real.arccos ((t.1.getD i 0 : ℚ) : ℝ))) (List.replicate N 0)),
    ((List.range N).foldl (fun q i =>
      q.set (N - i - 1) ((t.2.getD i 0 : ℚ) : ℝ)) (List.replicate N 0)))

end

/-! ## The factory -/

/-- The polar sets (PolarQuadrature.hh:66-75; the Simpson one is not reachable from the factory). -/
inductive Pol | gl | dgl | gc | dgc | u | uc | ty | asdr | tg
deriving DecidableEq, Repr

/-- The azimuthal sets (AzimuthalQuadrature.hh:73-77). -/
inductive Azi | gl | dgl | u | s | asqr
deriving DecidableEq, Repr

/-- What is constructed.  The counts are the `int`s of the input. -/
inductive Built
  | polar (p : Pol) (np : Int) (normalize : Bool)
  | product (dim : Nat) (a : Azi) (p : Pol) (na np : Int) (normalize : Bool)
  | level (np : Int) (dim : Nat)
  | equal (np : Int) (dim : Nat)
  | user (dim : Nat) (mu eta : List ℚ) (xi2 : List ℚ) (wt : List ℚ)
deriving DecidableEq, Repr

/-- The database entries the factory reads. -/
structure Input where
  type : Option String := none
  np : Option Int := none
  na : Option Int := none
  norm : Option Int := none
  mu : Option (List ℚ) := none
  eta : Option (List ℚ) := none
  wt : Option (List ℚ) := none

/-- A rejected input, reading past the end of a vector, or a set. -/
inductive Res (α : Type)
  | rejected
  | ub
  | ok (a : α)
deriving DecidableEq, Repr

/-- `UserQuadrature::UserQuadrature`, UserQuadrature.hh:36-56.  Every pass prints `eta_v[i]` and stores
    `wt_v[i]`, whatever the dimension.  (The square root of `xi2` is taken in the code.) -/
def userSet (dim : Nat) (mu eta wt : List ℚ) : Res Built :=
  if mu.length ≤ eta.length ∧ mu.length ≤ wt.length then
    .ok (.user dim mu (if 1 < dim then eta.take mu.length else [])
      (if 1 < dim then List.zipWith (fun m e => 1 - m * m - e * e) mu eta else [])
      (wt.take mu.length))
  else .ub

/-- The chain of 1-D names, QuadratureFactory.cc:68-85. -/
def polarByName (name : String) (np : Int) (cheb : Bool) : Option Built :=
  if name = "gl" then some (.polar .gl np false)
  else if name = "dgl" then some (.polar .dgl np false)
  else if name = "gc" then some (.polar .gc np cheb)
  else if name = "dgc" then some (.polar .dgc np cheb)
  else if name = "uniform" then some (.polar .u np false)
  else if name = "uniformcosine" then some (.polar .uc np false)
  else if name = "ty" then some (.polar .ty np false)
  else if name = "asdr" then some (.polar .asdr np false)
  else if name = "tg" then some (.polar .tg np false)
  else none

/-- The chain of product names, QuadratureFactory.cc:93-148.  The normalisation argument is left at its
    default. -/
def productByName (name : String) (dim : Nat) (na np : Int) : Option Built :=
  let b (a : Azi) (p : Pol) : Option Built := some (.product dim a p na np false)
  if name = "gl-gl" then b .gl .gl
  else if name = "gl-dgl" then b .gl .dgl
  else if name = "gl-u" then b .gl .u
  else if name = "gl-ty" then b .gl .ty
  else if name = "dgl-gl" then b .dgl .gl
  else if name = "dgl-dgl" then b .dgl .dgl
  else if name = "dgl-u" then b .dgl .u
  else if name = "dgl-ty" then b .dgl .ty
  else if name = "u-gl" then b .u .gl
  else if name = "u-dgl" then b .u .dgl
  else if name = "u-gc" then b .u .gc
  else if name = "u-dgc" then b .u .dgc
  else if name = "u-u" then b .u .u
  else if name = "u-ty" then b .u .ty
  else if name = "u-asdr" then b .u .asdr
  else if name = "u-tg" then b .u .tg
  else if name = "s-gl" then b .s .gl
  else if name = "s-dgl" then b .s .dgl
  else if name = "s-u" then b .s .u
  else if name = "s-ty" then b .s .ty
  else if name = "asqr-asdr" then b .asqr .asdr
  else if name = "asqr-gl" then b .asqr .gl
  else if name = "asqr-dgl" then b .asqr .dgl
  else if name = "asqr-gc" then b .asqr .gc
  else if name = "asqr-dgc" then b .asqr .dgc
  else if name = "asqr-tg" then b .asqr .asdr
  else none

/-- `QuadratureFactory::build`, QuadratureFactory.cc:28-175.  Whether the chosen set supports the
    requested counts is up to the set. -/
def build (I : Input) (dim : Nat) : Res Built :=
  let name := I.type.getD (if dim = 1 then "gl" else "u-dgl")
  let np := I.np.getD 1
  let na := I.na.getD 1
  let cheb := (I.norm.map fun v => decide (v ≠ 0)).getD false
  let q : Option Built :=
    if dim = 1 then polarByName name np cheb
    else
      let q := productByName name dim na np
      if name = "levelsymmetric" then some (.level np dim)
      else if name = "uniformequal" then some (.equal np dim)
      else q
  if name = "user" then
    match I.mu, I.wt with
    | some mu, some wt => userSet dim mu (I.eta.getD []) wt
    | _, _ => .rejected
  else
    match q with
    | some b => .ok b
    | none => .rejected

end Detran.QuadTables
