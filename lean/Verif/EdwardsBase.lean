import Verif.Edwards
import Verif.OrderPrime
import Verif.Spec.Edwards
import Mathlib.FieldTheory.Finite.Basic
/-!
# EdwardsBase: the constants of edwards25519 and curve25519, and the order of the base point

Not part of the model. The multiple `order * M` of the base point `M = (9, v)` is computed step by step from a list of slopes,
each of which is checked.
-/

namespace Sigtool.Ed
open Spec Sigtool.Prime

/-- A fact about numbers modulo the field prime. -/
theorem zero_of_mod {n : Nat} (h : n % fieldP = 0) : ((n : Nat) : ZMod fieldP) = 0 :=
  (ZMod.natCast_eq_zero_iff _ _).mpr (Nat.dvd_of_mod_eq_zero h)

theorem ne_of_mod {n : Nat} (h : n % fieldP ≠ 0) : ((n : Nat) : ZMod fieldP) ≠ 0 := fun e =>
  h (Nat.mod_eq_zero_of_dvd ((ZMod.natCast_eq_zero_iff _ _).mp e))

/-- A square root of -486664. -/
def cN : Nat := 51042569399160536130206135233146329284152202253034631822681833788666877215207
/-- A square root of -1. -/
def iN : Nat := 19681161376707505956807079304988542015446066515923890162744021073123829784752
/-- `d` as a number. -/
def dN : Nat := 37095705934669439343138083508754565189542113879843219016388785533085940283555
/-- The `v` coordinate of the base point (RFC 7748, section 4.1). -/
def vN : Nat := 14781619447589544791020593568409986887264606134616475288964881837755586237401

theorem edD_eq : edD = (dN : ZMod fieldP) := by
  have h1 : (121666 : ZMod fieldP) ≠ 0 := by
    have := ne_of_mod (n := 121666) (by decide +kernel); exact_mod_cast this
  have h2 := zero_of_mod (n := dN * 121666 + 121665) (by decide +kernel)
  push_cast at h2
  unfold edD
  rw [div_eq_iff h1]
  linear_combination -h2

theorem consts : Consts edD (486662 : ZMod fieldP) (cN : ZMod fieldP) where
  two := by have := ne_of_mod (n := 2) (by decide +kernel); exact_mod_cast this
  hA := by
    have h2 := zero_of_mod (n := (1 + dN) * 486664 + (fieldP - 4)) (by decide +kernel)
    rw [edD_eq]
    have h3 : ((fieldP - 4 : Nat) : ZMod fieldP) = -4 := by
      rw [Nat.cast_sub (by decide +kernel)]; simp
    push_cast [h3] at h2
    linear_combination h2
  hc := by
    have h2 := zero_of_mod (n := cN^2 + 486664) (by decide +kernel)
    push_cast at h2
    linear_combination h2

theorem i_sq : (iN : ZMod fieldP)^2 = -1 := by
  have h2 := zero_of_mod (n := iN^2 + 1) (by decide +kernel)
  push_cast at h2
  linear_combination h2

theorem d_not_square (r : ZMod fieldP) : r^2 ≠ edD := by
  intro h
  have hd : powMod fieldP 255 dN ((fieldP - 1)/2) = fieldP - 1 := by decide +kernel
  rw [powMod_eq _ _ _ _ (by decide +kernel)] at hd
  have e1 : ((dN : ZMod fieldP))^((fieldP - 1)/2) = -1 := by
    have : ((dN^((fieldP - 1)/2) : Nat) : ZMod fieldP) = ((fieldP - 1 : Nat) : ZMod fieldP) := by
      rw [ZMod.natCast_eq_natCast_iff', hd, Nat.mod_eq_of_lt (by decide +kernel)]
    rw [Nat.cast_pow, Nat.cast_sub (by decide +kernel)] at this
    rw [this]; simp
  rw [← edD_eq, ← h, ← pow_mul, show 2 * ((fieldP - 1)/2) = fieldP - 1 by decide +kernel] at e1
  by_cases hr : r = 0
  · rw [hr, zero_pow (by decide +kernel)] at e1
    have : (1 : ZMod fieldP) = 0 := by linear_combination e1
    exact one_ne_zero this
  · rw [ZMod.pow_card_sub_one_eq_one hr] at e1
    exact consts.two (by linear_combination e1)

/-- The curve equation in the other form. -/
theorem onCurve_iff (p : EdPoint) : p.OnCurve ↔ p.x^2*(1+edD*p.y^2) = p.y^2-1 := by
  unfold EdPoint.OnCurve
  constructor <;> intro h <;> linear_combination -h

theorem base_on : edBase.OnCurve := by
  have h2 := zero_of_mod (n := 15112221349535400772501151409588531511454012693041857206046113283949847762202^2 *
    (1 + dN * 46316835694926478169428394003475163141307993866256225615783033603165251855960^2) + 1 +
    (fieldP^2 - 46316835694926478169428394003475163141307993866256225615783033603165251855960^2)) (by decide +kernel)
  rw [onCurve_iff, edD_eq]
  unfold edBase
  dsimp only
  rw [Nat.cast_add, Nat.cast_sub (by decide +kernel)] at h2
  push_cast at h2
  simp only [CharP.cast_eq_zero, ne_eq, OfNat.ofNat_ne_zero, not_false_eq_true, zero_pow] at h2
  linear_combination h2

theorem mont_eq_curve : mont (486662 : ZMod fieldP) = curve25519 := rfl

theorem nine_nonsingular : curve25519.Nonsingular ((9 : Nat) : ZMod fieldP) (vN : ZMod fieldP) := by
  rw [WeierstrassCurve.Affine.nonsingular_iff, WeierstrassCurve.Affine.equation_iff]
  constructor
  · have h2 := zero_of_mod (n := vN^2 + (fieldP - (9^3 + 486662*9^2 + 9))) (by decide +kernel)
    rw [Nat.cast_add, Nat.cast_sub (by decide +kernel)] at h2
    push_cast at h2
    simp only [CharP.cast_eq_zero] at h2
    simp only [curve25519]
    push_cast
    linear_combination h2
  · right
    have h2 := ne_of_mod (n := 2*vN) (by decide +kernel)
    push_cast at h2
    simp only [curve25519]
    intro e
    exact h2 (by linear_combination e)

/-- The base point of curve25519. -/
def montBase : curve25519.Point := .some _ _ nine_nonsingular

theorem base_rel : Rel (486662 : ZMod fieldP) (cN : ZMod fieldP) edBase.x edBase.y montBase := by
  have h10 : (10 : ZMod fieldP) * edBase.y = 8 := by
    have h2 := zero_of_mod (n := 10 * 46316835694926478169428394003475163141307993866256225615783033603165251855960 + (fieldP - 8))
      (by decide +kernel)
    rw [Nat.cast_add, Nat.cast_sub (by decide +kernel)] at h2
    push_cast at h2
    simp only [CharP.cast_eq_zero] at h2
    simp only [edBase]
    linear_combination h2
  have hne : edBase.y ≠ 1 := by
    intro e
    rw [e] at h10
    exact consts.two (by linear_combination h10)
  have h1 : 1 - edBase.y ≠ 0 := fun e => hne (by linear_combination -e)
  have hx : edBase.x ≠ 0 := by
    have := ne_of_mod (n := 15112221349535400772501151409588531511454012693041857206046113283949847762202) (by decide +kernel)
    simpa only [edBase, Nat.cast_ofNat] using this
  have hv : (vN : ZMod fieldP) * edBase.x = cN * 9 := by
    have h2 := zero_of_mod (n := vN * 15112221349535400772501151409588531511454012693041857206046113283949847762202 +
      (fieldP^2 - cN * 9)) (by decide +kernel)
    rw [Nat.cast_add, Nat.cast_sub (by decide +kernel)] at h2
    push_cast at h2
    simp only [CharP.cast_eq_zero, ne_eq, OfNat.ofNat_ne_zero, not_false_eq_true, zero_pow] at h2
    simp only [edBase]
    linear_combination h2
  have hu : (1 + edBase.y) / (1 - edBase.y) = 9 := by
    rw [div_eq_iff h1]
    linear_combination h10
  refine .inr ⟨hne, ?_⟩
  refine some_congr (h := nine_nonsingular) ?_ ?_
  · rw [hu]; norm_num
  · rw [hu, eq_div_iff hx, hv]

/-! ## The order of the base point -/

/-- The slopes: one for each doubling and one for each addition of the base point. -/
def slopes : List (Nat × Option Nat) := [
  (10659313306209590292019093828112951273415815922683635647337899360145051452724, none),
  (45230950000620552527772557107563721282148353883149226875160400858357861579048, none),
  (1457763364411131054827036171413705422792146179538175719079120868827474523425, none),
  (8837018425121778076000522965591504418416840197694418104266662712534440895289, none),
  (56320624599610491922222852062005560339927095148076534041284551244114320297382, none),
  (14806103283088237679220582943475809251633247879362935628035210783002682094894, none),
  (36890332609128445185390999884334008342378525489605348605191022922013267496827, none),
  (5827120304598699325158105237780072309425818074703257664677226088837958801248, none),
  (10736154564527346153197769313407422951985679683587262842053221582592737729955, none),
  (19119287224878929421088871329520797189658199189764290642615202898285359390115, none),
  (30487394676246490460781222674928075439885288689306695831235010624530048541979, none),
  (28837237190325709644033660020537732343526627169315761599292319392162498086267, none),
  (30701268744069220196252017774486354372748892895220473422088119574171946170336, none),
  (51338629540747882684326434523265827770741195349021968200955643565765646910651, none),
  (17104490305107489110522217192318546399560389513165225726947595554286186431491, none),
  (46103501996052173836019009229020970788986324217761368856245207878427019478591, none),
  (39862333985925702635725440336613259549238941700679855608259763200567583249080, none),
  (34776035677637546553605525515192013073521386922534333597559110057174823622668, none),
  (41651885488350912657353781745903264866162712159126222313007639736203151559, none),
  (35171236097824750458099958981160145227211690455194631998684838051238723000636, none),
  (2097616856715469913292331060873457227541769915823596219184959130311202303770, none),
  (7521413950315457942349823516596074467456180255191951888840058989918723937020, none),
  (2657951433513557531705948392398910881591803851080024592043950749442896581665, none),
  (10782814025324707879755606648661567129203881895267410913397408118196081809812, none),
  (40010119930920744289648388983715410533003038000852887840897240835251921503279, none),
  (23894142974829743173825760341023079874132384374110704054263098109672266965607, none),
  (47963029205068198029244357301680868547181769173329587260177091182791751765848, none),
  (43592798648386389747307559777761380320873267767545543432406963264927686355927, none),
  (43403095756163463082073687629558601535204940181934914613390588796327109368989, none),
  (41933749731309099203459899552556866119269089987723519789270037742252041822486, none),
  (43091312985065803336274735055529576868918814649044976183252759915891542538654, none),
  (35793079963342190865954075798428962862173696776794631020189513078478759938093, none),
  (13736863878609083575707211611847625141107938418741952150534226342726708488422, none),
  (1359829231446591992852566193729860669660650994456292584161094584578710254493, none),
  (41628139529241547706992770114199385401497641146264882201047735969545649320336, none),
  (52341137348119840986039880656034910329352736515016362987647956921551637953096, none),
  (43118067176025803832279404841711815397429792691603734583054715243513647972113, none),
  (1122517124427620048189840052510124908921151120858117538269491402072793094156, none),
  (38743089285898955734492772054717447824049647792543798902953804884263960195334, none),
  (3391307664623962637232589578029774265722329317678996876156864928091129345828, none),
  (3082338845432581014463140352710858822181454275985534682758932137549053734051, none),
  (43483372160810409466123670207780187494442244408159719001832258595847455118812, none),
  (26070657869438802126822238235868434112431889334316376406374972117558200060188, none),
  (45587350095985130055116456450489943106668412727552812481434882710693397614233, none),
  (651269617110781385740975237809804213314629068740094614887042612866862287295, none),
  (20857261915140984989030742694219172671975220643601177266234109530154135013117, none),
  (52091509372343035028433546218044529521139513918872942169059520795134647186981, none),
  (40142962525943264431033195177750753194429229606257788225593105751260342542866, none),
  (7257154620096587973873103086904920996024095960638778539681632502107194960530, none),
  (51609080730693861722773237942222498018806835865536886735208497507625903031936, none),
  (13058299725491947697050506422472787955550823336782960871905438802870902785499, none),
  (31868365317768450429283899260465945582498469458194499106981848496437476806080, none),
  (51804257051906832969125788478119146080442137553770369746077007038094000799580, none),
  (22000178989981717269864210576492745696422110040364765137936692027735236065411, none),
  (14273182273219550272845687869142876291440326348676921341598726468676886488607, none),
  (11265297981610586358345200284899622623419233786744374441522593700070623701073, none),
  (10332773914360666724328708378750155620222694352776600626393621016403738281667, none),
  (1416773197322377933270543635582921886743250246698139575370454851315118352786, none),
  (12838088243430557598272013398223389899116872426117575087104632208113190328343, none),
  (28545969313522081300052767304469261011878276998384910625051425577935385963254, none),
  (57457524559363993404239488948129772422477446599827865076137152188465664454282, none),
  (32695316211748892169790863523672769435544534069505419048265018502752635214760, none),
  (3245683317514381874988058727066904171022854077704553081187516450473161588594, none),
  (9202983892476383836369024605766819098987014617258612583258689251529248339999, none),
  (49178781753220920158243759362199823789705710441846048661628406448887555436702, none),
  (38742673016808496617417523428212147993647997431877297300146328580862167757995, none),
  (30098643455615278778345598876808286251955773584797661318146059890991679671802, none),
  (54406597599245758357408631076587534537603797403767247223005183874321583309611, none),
  (17952965916395585276257636520293947432859920820249080080827828570393632414387, none),
  (19960614949954151832630250614292742394187961314683688232391196002474084458565, none),
  (18130406954870196679778760617839180764705081591744990862256633081662911412184, none),
  (22211156585586417199842319522501182040353227602076675882804592145005121144223, none),
  (52671027837305248741287070875435996878527274573630846402440256311335142410988, none),
  (34547641622636878581762246445262094702169174275342176588028762635507594452021, none),
  (38270230794946346510203060317236296575419795692876535071918032874686625679135, none),
  (17152177934010774161985311833378282322019174325520114532808580658193342236507, none),
  (37527444006737242423368543484951076356830746353730377776634719752653415833904, none),
  (45300536990441026369654474446033182001736176660584022808594192017171597656812, none),
  (25631663308695639899002144060565077787404577477910657710764903426476069358097, none),
  (20055657003211975261060181047901141479666859613622053868174733790407253184420, none),
  (13564214606423664214730190252074240301601625328611705851296973318154495145903, none),
  (6474398522723138213362526389670113437149900296822161236308323540543368504819, none),
  (37373402477494410642904637770115157789475440942406875337386165806626758862529, none),
  (30755840722029800744078113488391712206785052275592906726290337597086323524252, none),
  (737623578856979728799661269006139557688773168365741820141523570658902893241, none),
  (797934368256197171620969101988233372636074475766695567009436187958553688142, none),
  (36438140976261146510309139233085525705128814493138451221499080538581927228797, none),
  (25295241378739458008123604867359106714504116685270756354520246967127349936468, none),
  (16099893124774908514893205882890350180000143879618861054181096644507179258917, none),
  (26339672600633213468273143629607872846696335657404305082760537528270370409228, none),
  (8348039696811410590768946370357346194981138708267207975390181164059133017420, none),
  (34503550776989207076035929080857605708185362043699587959680743338596510341959, none),
  (1277759428372734954268398123782634088063525515408813709290311421467992199072, none),
  (40847761454886622044780649611978706952115593901580608323145104556784201649535, none),
  (3844442516176740613883733033551556380412922900793679752694556459427130012064, none),
  (56237270674480847482157302943981224260002779861453136871941211340377356618978, none),
  (9388233017786478491143871303106514655640694106799427336074352775501788083301, none),
  (56379886574723142262666314523782803074729744904691502375305762799328718828066, none),
  (5798874154939812880813819945883985660885316966790009799963725084755616329261, none),
  (17887128399871468980685112084399840062305351576863741711861119904777170319708, none),
  (57078060386507203443495790342548261802882022997051946611757165491897200282185, none),
  (45163811141966620420365483724742858184962160482340149703169751541947133113614, none),
  (25910256214233753995246405347368990248944758531420322352415507783611869737662, none),
  (38958090138641520708786700011887093193874487888712173718918476788603856627192, none),
  (21847603033667893716188056190506437811097871932012760497488289858639191760537, none),
  (6893830402140838540890992793264570614044345424137491019091434563316392039648, none),
  (17917686218356918074876126336721158170264971827679890182711381791443398523262, none),
  (54268173907099490209812266191592738850209228165388308173852365502057776317003, none),
  (50306434951790863021324850394460809642787413354851424254808869926164461578715, none),
  (27107209737009326111691953471385171598895951117126940195303681188585864420861, none),
  (2824640689845230718766151162040162874220172099552330412444367928120873311136, none),
  (16720574518795276425132129848919949067837735490560480452627535083918807681469, none),
  (5722442972407067848528343956892182452372581470171477114621459291391937335678, none),
  (16017838231960202158456816135470831719257829835721632414858888998535619886898, none),
  (29514952345448389907402561755435072067069115413228264422226454714144388686916, none),
  (21460574434803380105395186302772090388448148502113569376175333521507667509563, none),
  (51754812900759090089564298343966598224668228763503391830338501175837045854496, none),
  (40780591934089425981276866284015710205719680388664387834937330132603318612460, none),
  (29171199296610468342352988230521874050007319489488729590708254696916137741018, none),
  (10227417508043801025666845008752206951045334271911470262106814052741294119155, none),
  (37893304750175947744134864195258201020508620692330858462321581018169554573091, none),
  (36100422701325618158741214545695587193039305561889621997886188155186834810622, none),
  (14796706129384722287605728193444283345198196247991711473325144351314558538049, none),
  (47586299699818937089241402243381897447679433286937931666777314477552244426773, none),
  (15504581534769871746113552796659130958829336831197840759358313814743136766932, none),
  (14324880496287710620443604876282700218860692870572631978095590750439292424458, none),
  (16534596195087863258209969833642449186327080099386806864599657338765013718207, none),
  (27397592943735465565263075767674059263582559828170974652958075252015498728722, some 57545296500576251795204012851537591357613301227963937800507222041429219759610),
  (48802506271293995746814110000452280048665620034697417775940930314636533880629, none),
  (12169275061741508388118447846380104979213539681240109651622274285514836389320, some 26597038793855333289064149120710864140215386131586884098713158909334348461867),
  (14375170888145186628150638931786503620221097025287505606044319452406640351578, none),
  (14435986141689529326446279058635190722107805970438749753015216004296325458478, none),
  (31044531965729406891476183129482723032910360303496575050695973354753203616832, some 49112479810484277432840371721433542151817455467238488790456112835976316571920),
  (56315218694001648340793682951134963712898548164556033292994281264353154099691, some 7545861823356215134483950199500986949926810249011435033282015444735626192566),
  (15688157215334355556743306075583626451510789275039105896456781548876158257647, none),
  (42334515469633633765735591209901642728029496827855545014123574654371291618973, some 42456530031981121951864427486575938015595540290051008756426342293639303313477),
  (31354728154930508965235495884098386412470885605790503954540345481232810426773, some 26040827114847000960069164565091089831334817039349954676206301419928867018973),
  (46565323765073107285742875680749755344958601294940365190065587290056393592216, some 35626314274111808980728889153353637934418069399048160070181487027187921241970),
  (14478841321158384770028096518622502871891546827137183739287700241199777644991, some 9477243056873314321979390896050881806234646494819197896364132802199915282501),
  (35890695409997536313982589887768849588438181276989392212534888040763690708453, none),
  (522005603179453903261124930215745106896971453049696318544327078899949608611, some 54351340499402739990675582710308455499286352087003194107048683977939504529833),
  (7994516573836713526199875968282826507642122442175904532385845341929270360617, some 6684775107048280969778693586588132070630434004916155115052428015997975443017),
  (50709727457360041900686914639251119536560432864352023770734626057948768382845, some 50352835311063994020345836210897427422262166456670154514523207172989562901476),
  (25099440872000758539918530233390839721097206744004136761312509464584118685632, some 32414007801854953756705261149013678902054036003157330675028239551773055230394),
  (10142978147520527290474283893439753921178306115152391952040223725226478747100, some 41951409453029204502856596471896201212161304010522503909282086980456613399142),
  (52891841311439445958537308649507548599055739437118339442029499283159852086069, none),
  (424409668167920935957817495652020042915560247449544672227385371017582664799, none),
  (43804111172787523205538727485271404294100949645850410428602523233200807939491, some 25854227491572228733665501245312677430697699025291825357320462854487972221503),
  (46666373399723569247691625777650032855961976375698405196369460463888488917368, some 32156195878553178903380997866494199372072748734289212011628748995723086112732),
  (15038446394710919100632767832735477483438589577376235133772810723303215237946, some 23179485484079906930874976920538132467081650149901478695286690966861617608729),
  (22961813775866552076323250921666095641088416455473682389330547513594717248638, none),
  (35705201526196492234840181127745328096301242049449738560807595833351098245000, some 51599614212758447442793195018045452033997162716172270505415356412243781852337),
  (13499345184097528431518182789006188836429349952983920432815983775341154161077, some 34013348717508626707936673434304390038255649529298512608102585218568736095955),
  (35625989443246690363413717639229385665567611199373349994083126485671640643986, some 31290840468169255541253255508945970582147172596828144579049257466876044037710),
  (35976575537013493865759654598593141538934756350010954186033119923391697099173, some 21926949164263188172578610647632738069589754353864061535945199440817189664593),
  (7501534422385132582132056284162081592156330837254197552110837498943517536466, none),
  (39705377720592161314565560300018043700312943441594052989439183095666184576844, some 48346455134267172094057487483578638767321015721386492937602766762589819968525),
  (40215956004797254509737132133680500099475795904961377598398491576244955473558, none),
  (28663176034892511531558756449866022094380818424324199133425108275976450056171, some 14428008363164286806118048836530809749708875025737097034354979201019497326274),
  (17595075783400806739773016515543442843853540009090435797328927717510588479557, none),
  (1324070345167193164882449734612768583640761828911283252442565046473370207549, none),
  (33679540519838378388272572241517385593550934411330433157070915448804845065356, none),
  (1232515710323166175975570376533380054252185601338503302366867926563453432529, some 38120077596306677144016407713994858940591882859183534698763964375237507999151),
  (2580365313138074769915095714082822853763179973075392658533792321387001384726, none),
  (34818006439997367422976001255386487933340978701895909925781276228640204347914, some 8478828802090143949093020617367088705997766575655093969448816612447591070090),
  (7386447255116497093258770367875259614073373684602589545088944044292557001954, some 24671820012147833169330304387820074632976180411270786733068893259384036313916),
  (625874339882522312326668986387622891623391995596905756053312595062786720708, some 2530599145724964086866781789159377207384677662632906585631459224907972735139),
  (38396410015428967068796671481648509477618964830107811585841109392466414676520, some 17406517077776317140712860079528369115234587027696013088389630285441795423658),
  (4264331432278409234281259227283845618613151007931260185821026071655604932998, none),
  (15475356105842645884533530932873683929948992916382977066082758431996369885660, some 35966098805913093761140686971693369029382145619474409793066861195668780230216),
  (34967436400885959813193874336973799319503181084389815066284943041351856060677, some 23765625690653643506831966424670838892858785272308043642536466230555063497201),
  (7715933321106766504385369586824604067659153690916438625731226445083058719326, some 53367282159015378120305280874633683250763544136386439051701384138247354807978),
  (33710450116483109305256658199118798266649817263223388205278886901942141921065, some 18227579012465208468423079962454553107910949223262284846481384614903355970570),
  (23673587147855272280596330057493982377364326975281320358557791799029309890192, none),
  (19737989709621081383333448152732175418002661009914742027107307723486829903154, none),
  (20005817934684572063822480865009152154282686502775565984530572476166460687049, some 28126369978834966843343410451807286253291477758450870155689673216210960814996),
  (57264869466088908241370449336597834084551838035604088464685214706647206873128, some 24980453133357580222695182433599642463187539818701733661420628267059012378206),
  (56182758720713934180443846694200363562632437488959474648299131245616957152051, some 47992037257782845347448150823766757717867731988854818081281255025254117448976),
  (55054024149759137670495132415634332066889917181482817217192347601653795638221, none),
  (6072802115200564283023636981717143327359317356803344129826631151899352715634, none),
  (3813873675026941329087045662305274716566751128702402968611069031654929272101, some 28472291501210123353074135852955970171695921743517317813365302229024135423114),
  (21804249916638002700935954167395233915152731947371077911730529322122054845904, some 9991441801856677620002959699057209882021762879803383968388134198685324479027),
  (50993096137067544755585724642637102503692624946920863515240749588165669012965, none),
  (44122443881227288238777786220849272420432791566577983395400904229541905593607, some 57032513546670034494790436955775043955532255106163096494039737275491227274408),
  (35584877055555032353756124469420100960457454732659864595378264408584397148748, none),
  (41580481499723320456332308563956277557075347080941689141485515081863657641698, some 28075253048991370974637944639756783634320523314134570685860564386785798667210),
  (26001754380109121139238888889074274289969658801829833993071360670238446926475, some 39515263971413139471660526274212481995250391171264833783782053758989061048020),
  (32485771734935755521684602772025876167925363126825519333904709985957788611869, none),
  (11823610945678140176804486714906299149836570326081035468775716287104610903793, none),
  (5526404505530370770296671739633915984024423192302023853185857258706943889194, some 28953913914138451119197146686777254512829553418707831852909420871867211145344),
  (43492668004481502005490539359769834696749951671389168172514267332054484267558, none),
  (47036197517351102401735378179882259123158009432231237642296419148466003254843, some 49414900587011476387662282971457221650700406929007124692939798863245613560883),
  (41158812376057668061909991745926349295486062995680406208833150555460332496890, some 13614404712324791434783110642615113347117191595119039392959451050107121849045),
  (33859662174472556963514328157503908230681068838108947612051683091060706892995, none),
  (876718393685436209873160257814647255522754094103593335394460231646669293939, none),
  (43279495083492149436773351544934589599377820570633530565659677374985773432779, none),
  (51996362755418918195544313939313246311539040250371073673567841620376480061826, none),
  (37239982222971644999013491195547698230255364180528678401938740466820856661278, none),
  (55078305751869704855221294636267029046240395293465977262385037823853819044244, none),
  (50168860060789975596072578113755810164427245613437528854712980730728087643369, some 14279275954402964755865762465285310966594866614390410964460764551832332258521),
  (19142501701242644426959625770594583882442745637540597290251047064137149297300, none),
  (33700690640643948178678660536484677684955987447482533712076480201261961507425, none),
  (21156053965829530320626270163349281619885316542807498746188196972157645503037, some 47661013167126083954637124594604862464001227322668343619358342717734832399918),
  (11147351616029874296836914745152468059542936695216891433301964447400825779636, none),
  (18643556738006754372217352620957154541593422111484931195460704887547204810262, none),
  (24820268736557903824759716261398647432134444191591974832756942140484656466555, some 52781964318028128905909380681904247257636096206381756372185969048028576525546),
  (15934722933488930141729110178045128879154564304063671777497996279585318837104, some 49592900874182963602473619045071023286379877380747020673959407983836985302527),
  (9695572795372188481052921720383140291119130587906017850624611411630918593984, none),
  (54789676292319851478496668202800290085654154221486440990382342472655329561350, none),
  (40049782940158185592104248172907288374650918347908564690753074377931340354072, none),
  (36236609347621634413300534323983453092793259066590158838351895906538402219932, some 55176900167355109562950431987886659820579588009133844758375220921861896585415),
  (54448333369769826412535339194136071837864199590542429789010692692406027081095, some 17118516865267606944397161758365918142507217203906995013804378662979389072864),
  (45458118225347645394869775602151764456016277113168567733847884380290043363258, none),
  (57484212110324319824621303563290797847948182603418801804759192459365313286936, none),
  (48971485542180470378531852419078738768232529690622521463395477560570358607914, none),
  (11153352680141683853901865178229543683184669578024179543496065626993895475761, some 46369063443025210780293124983432958359505490018174272890752240492830324525183),
  (24764569856832379391048344747671809969951284962410524639245166975625456882753, some 19380296693137519637871693186504292521739938085283129502872337236204294957320),
  (3482607911779386964852511333543652668699826870488978048120514395361354638266, none),
  (14504012460061446366617205059615137673126399588016101980788969669570350013692, some 33202268736634181740881822964251580086734945609199770020218250771003779921462),
  (50198943434218612659906124760024229122282131900865659257926906597611974212508, none),
  (16293121791324211600600495529992912550530787259846266040367811859301695658199, none),
  (53493161994792922585056674032108343543979492129005664788852075937550145049128, some 24984850355549563209926378624190117124734822915054245235713227864372607980788),
  (8913437913371343340467030332586364696754691527651585219573228318385262921879, none),
  (37753302306236415675752238402111921015604961777391740209695607854858787983978, some 48492531450962561769944838860264818393025131066461976424392174126986599824844),
  (11580418760660722899483562792056281555335065139112401431461106292616999088480, some 53230838337231725991249578402268599848374969259814887674897719527028901509426),
  (25040653652895092075602891957302910455438195823695995930875265833814399523582, some 10772975507644194545759803372625747371020762324189633578113337215288565756333),
  (14909208266369338679253608496065101032773945985661514721937067453584540588001, none),
  (28427204637913626282277850013951754585362027190528233988828539029793472656426, none),
  (291871992525234065867406289092999799253192211570501416592981409398483164020, some 11751073569480078614357231115782023472998070121121431923041913583746359434141),
  (41945029733161851518954332957080804197682153663025307436688548977271822161299, some 16109897670423881360892342594741014304582925233662724742773998505579531680795),
  (10275435918970392091905887734323998143333033866947847665372956820361293430266, some 38624521261200201689955147390007673463267110242672809869660949350620741163306),
  (38780794481648086860019256757928944850904086299439259510394618818157107881907, some 41346709489303477487109281427840445479194197549585139127820532191516281040443),
  (7081250128615370879721482874429961054289183941349121247090326119805955964013, none),
  (45383580939427526209978255264739822788499694802188585786818358586306734846674, some 27946556544691153263400949413216688598843652404142556215166787407973433992566),
  (32667035505481311677064290760762356281280703969741667578292388538825176480487, none),
  (5867790831596643053669276415802547451500138180665256555306123542886662456438, some 43573954870678326290107879427416310870926137932876757572694559137221050894701),
  (9208351440397213059750374127754921926898247243482897034447464315845744235921, some 22754565785598454476454611254856170140134938816886321350801180254689590277128),
  (35434071519963704257462579620748032114698372031933635663954296574434282242898, some 15839491766823076868872159897039331978061587526732816471933483941872362751206),
  (1386592724760074822146800800766555697298431411571980164581234841041911292240, none),
  (45629224835473039003767990728360088359489292158834352318084281132394868430638, some 32117837142883123282145198224946799697431562856269618181778854499987205489685),
  (21166778367755407866449339607986648252064734861310335703288694469391694545492, none),
  (50642337472944187855986873463758885050847135499680969843401670664898068723934, none),
  (57808860502967675993536162830588449462465182466709518467391347643200320565124, some 29186734116050022506725337825913617123103138898507371786406310953161776006143),
  (5661084853237661056571608628974171260203414600027899708934984859835212436725, some 56885798368461820702470392928485323226906459496674189942821506293250917440472),
  (7252961044799502024074849592182961758540214534328856389251074261638134360718, some 42476118360125080790559611280545283941913087945851573605552536424832550504461),
  (50496843991685303149956013271842148206936072373651589289029057392832399528455, some 22002747763959866957458825484058041657919542965195289897069844336097796147334),
  (48929405905298902272773792688462111200899604348117143993366810320685845690745, some 19856731803662467239735775553890874382617322324490925384794752818115235464942),
  (3822694279882662735533337644294012046781426447975218154131565103616254498991, none),
  (3594689814957422571649316019273545385453658158640271052043532982550544928039, some 3178725834638772188936356269503443882780912539295135154888975327617714021510),
  (54207938795862974278492839705810011586890432945135461796839976685827928166002, some 37228502115244199530928836434636718755990203158210607114555950853118093980147),
  (52750839555658597687520517633593805447006211268814447081070623719708615741792, none),
  (34404908890124081755556155014339558723792213901031639337529922010807439389108, none)]

theorem pt_congr {u v u' v' : ZMod fieldP} {h : curve25519.Nonsingular u v} (hu : u = u') (hv : v = v') :
    ∃ h', (.some u v h : curve25519.Point) = .some u' v' h' := by
  subst hu hv; exact ⟨h, rfl⟩

/-- The doubling formula with a given slope. -/
theorem dbl_point {x y l : ZMod fieldP} (h : curve25519.Nonsingular x y) (hy : 2 * y ≠ 0)
    (hl : 2 * y * l = 3 * x^2 + 2 * 486662 * x + 1) :
    ∃ h', (.some x y h : curve25519.Point) + .some x y h =
      .some (l^2 - 486662 - x - x) (l * (x - (l^2 - 486662 - x - x)) - y) h' := by
  have hneg : y ≠ curve25519.negY x y := by
    simp only [WeierstrassCurve.Affine.negY, curve25519]
    intro e; exact hy (by linear_combination e)
  rw [WeierstrassCurve.Affine.Point.add_self_of_Y_ne hneg]
  have hs : curve25519.slope x x y y = l := by
    rw [WeierstrassCurve.Affine.slope_of_Y_ne rfl hneg]
    simp only [WeierstrassCurve.Affine.negY, curve25519]
    rw [div_eq_iff (by intro e; exact hy (by linear_combination e))]
    linear_combination -hl
  refine pt_congr ?_ ?_
  · rw [hs]; simp only [WeierstrassCurve.Affine.addX, curve25519]; ring
  · rw [hs]
    simp only [WeierstrassCurve.Affine.addY, WeierstrassCurve.Affine.negAddY, WeierstrassCurve.Affine.negY,
      WeierstrassCurve.Affine.addX, curve25519]
    ring

/-- The addition formula with a given slope. -/
theorem add_point {x y x2 y2 l : ZMod fieldP} (h : curve25519.Nonsingular x y) (h2 : curve25519.Nonsingular x2 y2)
    (hx : x - x2 ≠ 0) (hl : (x - x2) * l = y - y2) :
    ∃ h', (.some x y h : curve25519.Point) + .some x2 y2 h2 =
      .some (l^2 - 486662 - x - x2) (l * (x - (l^2 - 486662 - x - x2)) - y) h' := by
  have hxx : x ≠ x2 := fun e => hx (by rw [e, sub_self])
  rw [WeierstrassCurve.Affine.Point.add_of_X_ne hxx]
  have hs : curve25519.slope x x2 y y2 = l := by
    rw [WeierstrassCurve.Affine.slope_of_X_ne hxx, div_eq_iff hx]
    linear_combination -hl
  refine pt_congr ?_ ?_
  · rw [hs]; simp only [WeierstrassCurve.Affine.addX, curve25519]; ring
  · rw [hs]
    simp only [WeierstrassCurve.Affine.addY, WeierstrassCurve.Affine.negAddY, WeierstrassCurve.Affine.negY,
      WeierstrassCurve.Affine.addX, curve25519]
    ring

/-- The third point on the line through two points, reflected. -/
def third (x y x2 l : Nat) : Nat × Nat :=
  let x3 := (l * l + (fieldP - 486662) + (fieldP - x % fieldP) + (fieldP - x2 % fieldP)) % fieldP
  (x3, (l * (x + (fieldP - x3)) + (fieldP - y % fieldP)) % fieldP)

theorem third_cast (x y x2 l : Nat) :
    ((third x y x2 l).1 : ZMod fieldP) = (l : ZMod fieldP)^2 - 486662 - x - x2 ∧
    ((third x y x2 l).2 : ZMod fieldP) = (l : ZMod fieldP) * (x - ((l : ZMod fieldP)^2 - 486662 - x - x2)) - y := by
  have hp : 0 < fieldP := by decide +kernel
  have m : ∀ n : Nat, n % fieldP ≤ fieldP := fun n => (Nat.mod_lt n hp).le
  have e : ((third x y x2 l).1 : ZMod fieldP) = (l : ZMod fieldP)^2 - 486662 - x - x2 := by
    simp only [third, ZMod.natCast_mod]
    push_cast [Nat.cast_sub (m x), Nat.cast_sub (m x2), Nat.cast_sub (show 486662 ≤ fieldP by decide +kernel)]
    simp only [CharP.cast_eq_zero, ZMod.natCast_mod]
    ring
  refine ⟨e, ?_⟩
  have e3 : (third x y x2 l).1 ≤ fieldP := m _
  have : (third x y x2 l).2 = (l * (x + (fieldP - (third x y x2 l).1)) + (fieldP - y % fieldP)) % fieldP := rfl
  rw [this, ZMod.natCast_mod]
  push_cast [Nat.cast_sub e3, Nat.cast_sub (m y)]
  rw [e]
  simp only [CharP.cast_eq_zero, ZMod.natCast_mod]
  ring

/-- One step: a doubling and maybe the addition of the base point, if the slopes are right. -/
def step : Option (Nat × Nat × Nat) → Nat × Option Nat → Option (Nat × Nat × Nat)
  | none, _ => none
  | some (x, y, n), (l, a) =>
    if (2 * y) % fieldP ≠ 0 ∧ (2 * y * l) % fieldP = (3 * x^2 + 2 * 486662 * x + 1) % fieldP then
      let q := third x y x l
      match a with
      | none => some (q.1, q.2, 2 * n)
      | some k =>
        if (q.1 + (fieldP - 9)) % fieldP ≠ 0 ∧ (q.1 + (fieldP - 9)) * k % fieldP = (q.2 + (fieldP - vN)) % fieldP then
          let r := third q.1 q.2 9 k
          some (r.1, r.2, 2 * n + 1)
        else none
    else none

/-- The coordinates of a multiple of the base point. -/
def At (s : Nat × Nat × Nat) : Prop :=
  ∃ h, s.2.2 • montBase = (.some (s.1 : ZMod fieldP) (s.2.1 : ZMod fieldP) h : curve25519.Point)

theorem step_at {s t : Nat × Nat × Nat} {l : Nat × Option Nat} (hs : At s) (h : step (some s) l = some t) : At t := by
  obtain ⟨x, y, n⟩ := s
  obtain ⟨l, a⟩ := l
  obtain ⟨hn, e⟩ := hs
  dsimp only at hn e
  simp only [step] at h
  split at h
  · rename_i hc
    have hy := ne_of_mod hc.1
    have hl := (ZMod.natCast_eq_natCast_iff' _ _ fieldP).mpr hc.2
    push_cast at hy hl
    obtain ⟨h', e2⟩ := dbl_point hn hy hl
    obtain ⟨q1, q2⟩ := third_cast x y x l
    obtain ⟨h'', e3⟩ := pt_congr (h := h') (u' := ((third x y x l).1 : ZMod fieldP)) (v' := ((third x y x l).2 : ZMod fieldP))
      q1.symm q2.symm
    have e4 : (2 * n) • montBase = .some ((third x y x l).1 : ZMod fieldP) ((third x y x l).2 : ZMod fieldP) h'' := by
      rw [two_mul, add_nsmul, e, e2, e3]
    cases a with
    | none =>
      simp only [Option.some.injEq] at h
      subst h
      exact ⟨h'', e4⟩
    | some k =>
      dsimp only at h
      split at h
      · rename_i hc2
        generalize third x y x l = q at *
        have hx := ne_of_mod hc2.1
        have hk := (ZMod.natCast_eq_natCast_iff' _ _ fieldP).mpr hc2.2
        push_cast [Nat.cast_sub (show 9 ≤ fieldP by decide +kernel), Nat.cast_sub (show vN ≤ fieldP by decide +kernel)] at hx hk
        simp only [CharP.cast_eq_zero] at hx hk
        obtain ⟨g, f⟩ := add_point (l := (k : ZMod fieldP)) h'' nine_nonsingular
          (by intro e; exact hx (by push_cast at e; linear_combination e)) (by push_cast; linear_combination hk)
        obtain ⟨r1, r2⟩ := third_cast q.1 q.2 9 k
        obtain ⟨g', f2⟩ := pt_congr (h := g) (u' := ((third q.1 q.2 9 k).1 : ZMod fieldP))
          (v' := ((third q.1 q.2 9 k).2 : ZMod fieldP)) (by rw [r1]) (by rw [r2])
        simp only [Option.some.injEq] at h
        subst h
        refine ⟨g', ?_⟩
        dsimp only
        rw [add_nsmul, one_nsmul, e4, ← f2, ← f, montBase]
      · cases h
  · cases h

theorem run_none (ls : List (Nat × Option Nat)) : ls.foldl step none = none := by
  induction ls with
  | nil => rfl
  | cons a ls ih => exact ih

theorem run_at (ls : List (Nat × Option Nat)) : ∀ {s t : Nat × Nat × Nat}, At s → ls.foldl step (some s) = some t → At t := by
  induction ls with
  | nil => intro s t hs h; cases h; exact hs
  | cons a ls ih =>
    intro s t hs h
    rw [List.foldl_cons] at h
    cases e : step (some s) a with
    | none => rw [e, run_none] at h; cases h
    | some u => rw [e] at h; exact ih (step_at hs e) h

theorem run_order : slopes.foldl step (some (9, vN, 1)) = some (9, fieldP - vN, order - 1) := by decide +kernel

theorem base_order : addOrderOf montBase = order := by
  have : Fact (Nat.Prime order) := ⟨order_prime⟩
  refine addOrderOf_eq_prime ?_ (by simp [montBase])
  obtain ⟨h, e⟩ := run_at slopes ⟨nine_nonsingular, by simp [montBase]⟩ run_order
  have h1 : order = (order - 1) + 1 := by decide +kernel
  rw [h1, add_nsmul, one_nsmul, e]
  refine WeierstrassCurve.Affine.Point.add_of_Y_eq rfl ?_
  simp only [WeierstrassCurve.Affine.negY, curve25519]
  rw [Nat.cast_sub (by decide +kernel)]
  simp

end Sigtool.Ed
