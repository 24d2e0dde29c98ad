import Verif.Lemmas.PointOrder
import Verif.Lemmas.Primes
/-
Certificates for NIST P-224, P-256 and P-384: chains of slopes from the base point to its
negative, and inverses of x^p - x modulo the cubic.  Generated; checked by the kernel.
-/
namespace PJC
namespace Curve

open Curve (Step Quad)

/-- NIST P-224. -/
def p224 : Curve where
  p := 26959946667150639794667015087019630673557916260026308143510066298881
  a := 26959946667150639794667015087019630673557916260026308143510066298878
  b := 18958286285566608000408668544493926415504680968679321075787234672564
  order := 26959946667150639794667015087019625940457807714424391721682722368061
  fieldLen := 28

/-- The field prime of p224. -/
def q224 : Nat := 26959946667150639794667015087019630673557916260026308143510066298881

/-- The base point of p224. -/
def p224Gx : Int := 19277929113566293071110308034699488026831934219452440156649784352033

/-- The base point of p224. -/
def p224Gy : Int := 19926808758034470970197974370888749184205991990603949537637343198772

/-- A chain from the base point to its negative. -/
def p224Chain : List Step := [
  (13641763652444986164232694683700554833969343544446717008109483653103, some 18491599615874726824789242399417019067692066358508681754456624698290),
  (15149931397103781964432091434871822976328386851746442541273837231995, some 10151856672204638497567742773950598692056623036129195195018980726078),
  (6845955892988538417689159683505182115769514222080615449330657014353, some 1324909397119891345946246358134710162394195190222083922683274195286),
  (5177003797593183896096093771088291042075849670435955453490932474096, some 16079677846543385234372181125913802096136187090178686842598906999357),
  (20304224051573756917608333973856729464781345447992522711011383117966, some 1155891590297795870780750387140827460989521873983505098722104871616),
  (21555970571803247876299965984625304334028689019264832233597892186377, some 20375932734234406805482171278327421245294299009699419266776006804382),
  (23769863383821428802423608654027221239381294467407193305034441449023, some 3603312252502654296779782558484015243861519904446671519204830054827),
  (14373655625051989832701381600232906166525242663426476473937440633059, some 22363274715277345884272707182393995141750942423156098040282086860706),
  (15713062929544251335158119657169837025325399728363426595584990071673, some 21648492021827798513388170614514844556252359397437180481372249761948),
  (381742428874004243788837253733784059344877907791443951997357320414, some 7794215623201589185673234950015329530694250765131824773486885650128),
  (8257403078717816977421172151358060679378937878946607078602342134547, some 5164532076711062559395397849391734627794120092102928472001166200183),
  (22164316225248777971890950398514169977502010892914646250212015027401, some 11459578904342591848921654847652306280251424318412438791242972128309),
  (6745717759634245390197615285227964784627599186574463042178205880801, some 5046174155679103267590215152453557003159383095630819359370406317736),
  (16391604356181495771502183926348973031431541666144445879421477053068, some 17340946585964675514024210455963683040356500854045721386709097902559),
  (14597584830715074701260537936022769315677244110140592953589709245816, some 8768541294785009456215006919737510372885712569985208768806736158747),
  (2398314378195342567331036790342886909496576519104350023680496572617, some 14611068774140361949519725012473216890638730046103117310730656267455),
  (475081896710101205418095438254051806023680352838182727886313374504, some 12646670529644177223292926062999320096324669499685174101543101889720),
  (323813354165691220437658056005642954990926876651432758501569357830, some 14559735093178863938828361746983615880519638632268862193734788903357),
  (10177469979219918145241400858497076342574739573260780900346221611862, some 15485367847700632752972987109937654304340363483861440731867812091286),
  (23592125528343129419569692048728979419199691484792225685905594803480, some 17588006612694240043554958713808927193521269237903327039993435695210),
  (12717443083350041706458805620112749000713762957748485970223997913395, some 7251074747267463428899903957983113809252034318789470808149983629133),
  (17862784338887325121745633869532085252142820830772308022131284957695, some 21362934154572067528829451690732409369935872141994792742342052451237),
  (3506546569830215293211574074810154750891227090989768983639912348882, some 6488137374886405826270413207971214039832217932786515830465035857712),
  (18415231807275721484321531406723727919107720502855196387982605160874, some 19015836792286093121967906657068391376519200731235884300968072743604),
  (3918117202915095525576879272661002380501866603856298087833590742808, some 4570518568587856250094232186043559202010903005981501795626815144623),
  (25286338578409134224842157511699045294973212794116955591130703548353, some 10622316891273221087768830765580233107996701659181909709206815764510),
  (18538834834114563493825429214346362291180956844940125334800862573894, some 18024312703730821444841910103654466884493831167365260421666112166220),
  (19680214431706064731545552823161452166800526635783569377904837093815, some 10849539706506947168926085080621961490413338250280886055550296116723),
  (15394476269363834321514647889366301735101082965191556282605642179258, some 1533520054518915004910213452688437710876776006389132088765727131927),
  (2549135602522294946242635624917446862036827651965060776989312925099, some 14529715176583636813790236362094595888558232470618318723979173430559),
  (25345735093813841279943865066610130137724414845485588626421580886621, some 2925745729146851336678362702344504061103062781348594494786910939662),
  (1937132472350555516309280480379797566044961162598929157881916541309, some 882980198344459027299542580001504600702201053188332166338809175603),
  (5592980681402926377235651468343420252597620811714360096529502207102, some 8467799650196506499112141778030765454843292983483617290820010282043),
  (499358075610108781197044047090825416362777281032554354562581372080, some 8687178765731335891501705012794103718939663987904124015751539483988),
  (20385375033040588154800121122937776509170677072125028688780729074115, some 13069568986106203132957732806279527861206087546151579362692588748077),
  (3073642125416817676536153854606931128598107726113521411747769786996, some 18794941092370169845480557706082754614929947302823509153397194263492),
  (9495832305262781539198115080918976964256060748069401560808767268615, some 23343955734349383976906532253952163950618984095278556535551227464266),
  (1217825710404959400427524669705651342209071751160110257285461705009, some 17134714875185098801692279850023487957348033208550778483162432209702),
  (5230715105906602122298858157517870953528916627334176786808138725700, some 13966604681965547622760525313440521766907064289453075094944894828746),
  (8143665432215719141794882568089057865032551447291565909592765333949, some 4420509362526822382439264893912956950382991313402822083543102043694),
  (9130471013077136850678016129023538687050508261983166096927250458765, some 20889107427556892381844690647653611480446186666390912131340812779548),
  (15324837395030469274969105465913147720239209238950131140935771032574, some 236759062102320425209897816319405523108955046825156870602534628642),
  (25817821635125694918732802737224241145162615646185635304928936108432, some 21179189947325309796970548931780093923800555231221171897500291672527),
  (8681525358570450028980116449850688770347659278176001754010039157113, some 22558130954547741253373232957870251501601000995003424804761048785376),
  (21246664747985061397471238095518990897958139839633225112466523205640, some 21971827043201219338566092939692594162809790882241774105901324933018),
  (17967891448478637294180113817371047726249716655935919800752283618086, some 11145561781825313216834227741948619661103409416994743324488835691984),
  (23320298223136529746296682482875333980700190983840763277447449257205, some 21342389151933727046825562275644903674691453286315755407710921717709),
  (1100236559861667654301758183614769300614406804608676832289577900315, some 22485705476105796309760912308878059765167688170335265179221570155160),
  (8897981222120342288891480266222448761883935057605084297698214643421, some 7860645875486285301616284421838412895780185199552180992279349172063),
  (12331145358184558375855788120614094345484786474655589916619079037548, some 501966753768212146446622811970137049940211989410489643347069184664),
  (25906240859952731993694981058108985582220143893820304293705666605593, some 12502699948229121878766884563235177970214410499539766838729380602066),
  (11943273263699940710425831950727733971591094757941044608461782552537, some 17712256205198883040325347582072764958281573485396379275951006341585),
  (20182252199465853911521494925021339618487888826404139560147642412399, some 22582862436609160137002281515102885725845709613623715216910809252628),
  (4958202700136185950776614876721816196191089239109572545303189525497, some 1945979367466938940353041693751103334569055959500164793899283171413),
  (23253308195191760635413595900248431620716164217761466786886904604610, some 9628312891863113193086696919981171493968831322878372652405575890420),
  (11620399897954508753795968224666029682548248664278214377584764379828, some 22280600879968675240800688869828428375259208876877191962234809651262),
  (17116502271928453269787555803739259268836506467239637868697530235158, some 14159686870349141004775599473518108555647380186785283104183921766834),
  (17768085195952004437462801263914936807131071975842949224904479679662, some 21643186779553635271835807466381248091982479606508905022498086982095),
  (22579770644826138137433360044229616733539768932354561621970928427041, some 15403743658116397195879855583147326929112194355663785298145811282808),
  (8954561006072306227395117422803503562621825317089210421385565120022, some 3189954811536232427474762256381610027141238264615370095280035337697),
  (10081736503701582664096841935326465854631816644732953731929782304189, some 7516359666596727084992303321728987645796671469063667081638736187115),
  (23152950301551887916130283501888608262687300814269565847560925203894, some 18005510369080716319033570155380082616232835645857368008579865951371),
  (4571010370759677517834903496362560584128062253749154946342151581067, some 2774924360139625583512244831141218740106922323090238096126868756213),
  (23824399376432551670960740160691391500172539556369505420507810077206, some 10577958475841060181536957982636113826269622583106789124554435435179),
  (20496179622954206664004681504605666933393712668885772413645464608232, some 17850260368993097426536117789470139666091615031023182068351294146973),
  (8014073585270024227229361635780229066812862732390580656721122873493, some 8120143777821651509285542890781424274553827069588217520632048070417),
  (12828124047851874625480347175147439716417436779905210632993508454012, some 11608862892437267977607901375503784893679512583852226423477315587861),
  (20176305649252957632910230030245932974594628913384388419381763312623, some 14930638636457000128160355032230524877765671566315731578244436444111),
  (14211553411221139438587241940524278155468176791424110771670924998672, some 26888721060852670411835409897081293699850329863979827329633269138000),
  (26415531552040970739167452263197780365063470867204102518756967859228, some 16615482067517624624618669552027192669671313314540197599580776960846),
  (20470560454902094333570437541009480600814721301601416334875565980237, some 15797745090595760747197937548890297612246779529762927531328748890720),
  (9485275624726312175319247309298927806788067426984919924668694213610, some 24329792803390570273588555526822379128610890228414731272825900182497),
  (20131807434105529069357706693014451819221348443395427855170944587953, some 1760539522167705474616684827402592647441036954328406669458810344617),
  (6707264121543589672325678533877542958298850750808335119992025775539, some 6547365798106612033173582741008865260384703495670183528370980879170),
  (16459385018061540434800839180876708681102590220040489603626023085526, some 15944906381877313613871206101022455163701362739625920840583153945515),
  (26788495575602421590472154214627295124928371980663594853695637121806, some 18997709125513187107352728672561735246750181697078546793642243513442),
  (11073939799207195241202915313761544535033518700431574709311096339736, some 10175595959780523791704357362826108462861554863948724780854582623420),
  (23884608490419447425499731474076805628628607322697891817419953898447, some 25104046920587722695886601344026296830311798784644640164243555908334),
  (22339648888616146537686315422312444228214486238033685630102771917106, some 5607072262259779868106378705225984903359014570651868760600821122693),
  (21499479354934236889799021413155414775512628198015968984763625792326, some 8672238585947176652899210741092597402994468679409363418318756198),
  (22252914014088084229356436423799257556154341420943910693657789715195, some 19272665367311707590935564612074380814135450124716752326374931364277),
  (2135121013670196315796212764807513998063129682245513655750233091247, some 14134553127655484662264307049942643406087171995148337165823071230736),
  (16429884199751521832010987863250777813320644159932724398899015012661, some 17841892363712502351423202355678724015491117549107740907157176055113),
  (20011161448159290911334855032111941421651422889042557040438043726306, some 20874857875818203004244582778379211464602759228127990655107053436533),
  (26575157940563726459894267068263496246514454843733004999853617633956, some 23505311961960011952779728545360884483253006756207698313260430722487),
  (7056830387018729805111892590118253125638526529749985877972746500051, some 26149549442851445119440742832728289045727959661632138263119494574882),
  (6330154014263477850997797900052312476333136875553469183317308634334, some 3718789521322771956095411822454538705066781769816851799806209779681),
  (26719476376346188101480722905324341677477123034495016951396985743589, some 2145532006322371182782773218300787496999547712573690132236343666710),
  (17438782362801703541654794719404494963036362946808837707088390500284, some 6563870401617719446353313875714570974154697599357229108386286731273),
  (25047206151164097838953410847724954524109555827643624284289392322474, some 22104874045456552555371617787730889356161653897773196634548258673085),
  (8689038095630121594335525002386671449693290069273189412293838801823, some 25223258713800182701131956253411917758192277126757988539541691550946),
  (12180696418943157983589795707979493021488626357858177194172651735291, some 3467799712777082851983436272334502956475358786295781985388438446606),
  (25494645319800199436278830090419509508584079253501502307327427399797, some 8994967172566852859324707801075943888447333133140338331423041646217),
  (20900476038532448729868918518342930215494534594087413307254304627206, some 20111035712365896888493450158966476001770553599911088832828240006291),
  (26885784768037446484549000033883817219342633776519462767066879402384, some 5368552485205026811933918059784005789303987246637024869873385685345),
  (8855073628837329703980534556251170601261475657418124303053521180692, some 2196874554794402809469420285125403580970126566358579084103211117717),
  (11478954718433766970939477319356882970984665005102192803204920261548, some 1839412400418976909814525041172410276110712097048869031895780496458),
  (25827240139679217791835331828296660040745843006745799537279788261973, some 15648706047177839354894482877587223909126828981867475096053479678248),
  (936383526030645065708107240036969529458640298005061190813143679347, some 13707487837337767100586863290211317114511604634578487362877660560778),
  (3950314577074946478238292157832609349828435532726253756797453903617, some 5818431917992293186858001842835851143228573670103990469517807309485),
  (25554921779945552423622056705543846118692691375604036159593992749047, some 3134967446375402761487718701171416182301392155678211082096687854253),
  (19484946533029327842291758466284872855858426489115771177125447023026, some 17938685742638509346289034873803365286627886067877517562668590026043),
  (25168673013683880644878487666801126785971767524435582824262470758924, some 26658826875865382530784220334455763238927455816014577465683394574555),
  (7412622879034412765653319958746111897963512550504236835625138101763, some 11506226938262962203226161359221661821470588259699348659950878292109),
  (2983521188389628497561050858091002975379198542259971689361817916216, some 2631172521457655469991984096012175978437843669182196149244749806991),
  (1976208203867187295590715790192864597686355071112631408701131991674, some 20628067162587115698242709515735187670741347033121446282019704329205),
  (25812333648736025672781514813382590334571635321689743589051025054224, some 22468291020130943271302300221863151333297105574414630735255840142707),
  (4885694747967145236268869683052533694140577971098617590560101498147, some 5691346169305410961620527152103582122088532817584424966584790688923),
  (25264801627587307277151718798300601160309652070028715528645162842172, some 24134047965787295389917822034333322173790976150520751868087008807300),
  (23045060660357191944419248265424346688947051319520785298286094442353, some 13098301793391766456556765667951252223556904951622193678663042069126),
  (21508081300410545085680020605148978549769267300947081075458365081941, some 18900143595198651880672789426202424044938341297813126351757789032712),
  (19992444943957627147711490146282425230399029335998675300767439396072, none),
  (17790305778197600785629746326834541203469241280075555904746642122238, none),
  (23880484352616239268812757746897961128878191676303417323217606354657, none),
  (107843896859319396577143710321589312725802712540986050530901519405, some 9010289751830462722683905726514625179931269185339477997107499577213),
  (20510906522588700947275863131780267581940084471467849182017200422212, none),
  (15531267074621445654130971985929322011407434380353101006800550889234, some 5562156905777644618300052121961759280587984380818606946994248952306),
  (14837899366397853150741243223239739019081336098170230509856342403438, some 3061078165624056780017621335220301898848167498468619883398834781559),
  (16692784591393061259940836549235865613017344607406891102217159816637, none),
  (9201867768259083086294831262128136486845265812224293158480229175917, some 7287486585962284416616339142175398955141607810899921294155321888136),
  (8517176680557835789535773872338844715009766414003688497104416348703, none),
  (9692111886737516486309988615863024806145069158957298149408413820062, some 10867905522342268099870221847267073414426433628586916317383605821456),
  (11865546186579850177330934845130208078138259713961124324108528022114, none),
  (845129169775197057747555067535689574203904740374430489087554988531, none),
  (24065129622892327124915406393623589069068813828267702562881200086666, none),
  (11972476660675289294453336977161960866487971347187689496523986637098, some 1018986019642992411315632619477542623771876213392075958521792127333),
  (10353826748752159986257448921287503990570219778939723440105042300728, none),
  (17113213550389220452170696872886794589649067355818547046340053556138, some 26803320681944332996639423108605701732583357910148403941214879102538),
  (12528479980227341630383744022357808189902748601465543675250322283699, some 18879257994773960295539306370944798999835172616814827299665258075204),
  (21782515754021193968861726862231628992021521414732304270319815754230, some 15974150257636732095976111789399265602517728789778915216245865439114),
  (22762623673497461726841920579063258754134431943682956427977137901186, none),
  (18967046086678796692173532533902358645140098670016265170134795665756, none),
  (25806034768389500031396835388055779432938780100437209253067690730603, none),
  (4138524091428820541080514181306394478937790863891044094779562717996, none),
  (5531642406335915131665943110596129909055004079025158612281625723569, none),
  (6499897635504248901474346134574740175749546052417805091757562089690, some 8763866573493422921455081132760437828539355250714143110742707418077),
  (12544708551715725845126345384414221387634296356503867317156395663805, none),
  (7392893567047691931830468936733587492091043630015511589527700852403, some 13208253242735031936247751924891089197410184184942766254366254272476),
  (26299199398550010240211561680100213167292224369713378304807472289001, some 18997836554570612554869182746028346458209185833374485147826853107208),
  (6490034934021591413752591736854535720131699543630683961311586904529, some 25920916181183048338042392056436860828944370321339243864846898511758),
  (1098598825115773421365390053337514420973849389195760475554025836390, none),
  (7929211680334561377284462144323919196098767413238179002079248515569, none),
  (8119983530780981319597179084783495213612553849224725467445045310614, none),
  (7421825059139079503408162183502363143311494622015724429255439974032, some 19461136663962727805893707065183110513813939792405443167402786857063),
  (6832944255622183241294563877582416848774626847178381794783634201969, some 19292532883893236109335008187140825670042867678408477861814777881960),
  (17239485196313882482234227617569160600405854602635348416424414525114, some 18810516430470941692101236057356511818633321327840174710498983227585),
  (14531151094676292844711600642498759030543424520049444405756218420098, some 8269536980626835699161186649520197730272206516297098132197904186459),
  (4380673004973138615391902778862049029176346300612517465666624920428, none),
  (3241640021930655123167005667533664521274760769158425505323084617789, none),
  (20687380204921609055508876224865609711010147733955878097606016383070, none),
  (26217564425468777152699574108392911985703041951645951608531042983175, none),
  (740207773214690321777328750516428317450532431883596540289752048066, none),
  (16666904938275175879764320417281512341104434624776404678529273357064, none),
  (4317229136934604796456645864510223902287172757693561286438598600928, some 1257481141598090290220282525087579134403534970698915152377044845159),
  (10405184102115867501403943691213004616804946605429153886100570745716, some 23191272708967073377816117493185760787253861570622173238318154158387),
  (19113468739626610952669517867833872880366586059595832381521996793206, some 6663361188650856878535655432015212101658625653415760944808995670930),
  (19752117489644857366804253283030608785193558747560556112950140866052, some 26581165140726803422129878392892449889820770088886216806923331947218),
  (13317271164893876020183974642922357285896162460995642404075279526903, some 9202201792590928202879516275340280869853835101569922015976553049245),
  (22573636668649341698628819870098481170118939819327446365889053035239, none),
  (5909811800347064704147825374230764758659147157081344698312600315086, none),
  (13023372252879086398262965845619128833885603653072148621715598997346, none),
  (8600848296984871096069791092417400580757288729672233907133817117347, none),
  (22790273661369478988239565748428790198018011850784833730819469698817, some 14066331115154446605925902898539502341907242829510578119642778966386),
  (4917671174197573327950786957978921328199119488450040306541446921335, none),
  (16106803821724806122013105694198049068267711416030447927402507548226, none),
  (13283300475665676857717953449330361783373457505523932811940287232125, some 18548241794555443130885407449153490741406430451284312434642794636295),
  (4556833241297609180620579094368249422150569890486617087615247061243, some 12603837653471174628464754843545724902143628160845071248653330658392),
  (24871039205874209593940059203539713158425559357302592202212586832896, some 12241284092436322758680048611957578262720947070427830021570466277568),
  (26672221422800624342364742092171462385154317727359885754722851601935, some 26297114503916512132513135691351838735368956107329721057792135201642),
  (12706307477998207639489196549730094075602355782392372901294476907236, none),
  (12071030300910127660320082574386086170787433480410404241275861976476, some 22635468866031136033540092564184550997240890741665255472583184267311),
  (21621628723003120453958664505666556442126819843797712568947372945366, some 22858141361860166257200513682870604491629966145261120877733145258623),
  (15724974998573358300284142482491662276456279654119481244946316306800, some 22096650673487982803950386764680004757023374583980596885188886560654),
  (1064300554684016949496088258256484412212711067175194622159485213416, none),
  (14091742777777915918572610294540680314987774314385732105181235923679, some 7526486119927525229434512294055243541065582338845551781656298720516),
  (24875530186973544597646951297753003737326797844354019405053540202215, none),
  (10064653793681264858833443695365780813819227432668538700125351817804, none),
  (14597149710950722550723496147231870208760098933128197305384510821967, some 26159593688986116803375435525327756293868966822598056740028981534748),
  (14179896490788889674889177696995715143450867299751153995807844909048, none),
  (43921682534088031208284643410658632312672912512001834793728983015, some 376890992547747703381765196165752066349198963159547280815805028477),
  (5610374196692141227155331819889442578459971304569273317103034855037, none),
  (23160041618572891251590218879263996246851506416712835058994296919057, none),
  (13737504897764730302208965721922187826524657014071347543082403868728, some 18938471264142517673373886635529980227601517690425574571713996051630),
  (1947770610951150516122171416495287816371669999543722507596548317743, none),
  (14706390041511748626552976173243840717082128019939826139974302555487, some 17767724543728610191542968196182405463044601062850117945397372045638),
  (11230036314255809911887825818764981157816350282140567613644196333099, none),
  (22589503777909353884056311420820798177662962201928559787081742109774, none),
  (23421295477903999008920952463571370734213336801671726143782495883405, none),
  (7246036617218485734740978456009557536742522137783043273141491381555, some 3104159796650244695443478411248929894804496609335365889234956140468),
  (12525385573529467164883580884652890391859976319507143054244968800357, none),
  (5973923415828709140909723339568853429527427687409887221010361847657, some 12258886412132981453953477528877011734655347648829193075039651457585),
  (17201863475622879819503387795003348973876894107597340866022225552937, none),
  (20427329870074522833146500967138593508253768421898039468153000622270, some 4269359259938342269277014907105434560715628059748516692525244586201),
  (18437972403328717997029619206311529353230620833629537695962160012374, none),
  (9131322711947203762593586735767299941396929485416693650421577386037, some 23223014520540923036514568108214560193141842294594026512012306338770),
  (19183058435535840685941297843725232244263165514223445093613170469815, some 20378181828624329478584723297844976439786616457953358209939146392897),
  (3705919791730016444485409942695840135471173729575906182909026991483, some 22893948769442754728584116152774042773507600867628630229882087547402),
  (7822741889118409854657703095766737785190744539140249764085646223685, none),
  (21571163582033225113786739877264796019534891286915102275820877375843, none),
  (730624532813377043412494572292378636936433512813647577666946894445, none),
  (9406716770678944018797401740347130850237627435146270165015403008831, some 7791603341386753219934763626695927564750317551602878126965890560461),
  (3004885634778498098597055326062317397785524731891333923528050569272, none),
  (21974840708475025385991990673815346097981501354364442178079568583632, some 10064180113685532075544693971218987970223536740958948423989663958251),
  (19180428561267065707071593627425859070862511112704926004822278405747, some 21910939713631044911295619409202336147859454695489207346342799050394),
  (18160681462518101886967078001529457071036009260972731791453370594725, some 26335603421768659333068502503278308525997799386237861008689899757235),
  (23499529205810323674674370265577087189872999701077542228337446957684, none),
  (6290826855131340314085085393749110491937177863503695058526394733228, none),
  (8960287008660157153505885606742062450034536984639373241137753461135, none),
  (12265923678345244008463542538308644968719874883973482794659855284583, none),
  (24000337989148289177329853344175880963782552164061624830215765907725, some 7186197782185382865038680670450241117187145064287926213474263672312),
  (23157773596354283339320390448416676455704737245931171583646188490381, none),
  (9195674904862521529292628502232066446847429358436323288876056593588, some 15846552571126261032178506406772536099050131272302142826449159432153),
  (20121429992785929889875076803762099318083810772332388049912225465132, none),
  (23049446506319032590730914176402562588054282266164439105754580405880, some 13745770252567129916054284336350938850874153161133985437316211965419),
  (16099227170724175082031048324962809352117839588471034061707753163975, none),
  (20105437988492789259759228074653416374335638444903720177434452145737, none),
  (11952984299438602584221851128953026092501181829534729668486455976985, none),
  (23106005828760968592136398011272868872396158688671034376500608486328, some 19652878652145945707788748829582905026994765034036992797069360842942),
  (9854860998057580332785525836019199148145472085341109710561688318133, some 7539803807683252852346310699600441616244383660656069633974364116766),
  (5487529656628984519478940388483942751831258083039640926515706044654, some 23159657704099421248506578208237292313536293323443994705545605169686),
  (1692405250091127492868812685256388719465261955852116998308621797131, some 26927886065275366137831648563213602800624016084271464338664976080560),
  (637017379484093151360028330074458277589923208714806251812811480050, none),
  (5707276765917000541610984418202436505108930764401552906621663279625, none)]

theorem p224_chain : runChain p224.p p224.a p224Gx p224Gy p224Chain (p224Gx, p224Gy) =
    some (p224Gx, 7033137909116168824469040716130881489351924269422358605872723100109) := by decide +kernel

theorem p224_scalar : chainScalar p224Chain 1 + 1 = p224.order := by decide +kernel

theorem p224_cubic : mulQ p224.p p224.a p224.b
    (powQ p224.p p224.a p224.b 224 (0, 1, 0) q224 - (0, 1, 0))
    (1261710631285627074303005901530361786216288604486499842249704943048,
      4447412785031720342771701563499662000791675740805516550464163634437,
      9439789507511725786058244597052783711805086828869674293526675889612) = (1, 0, 0) := by
  decide +kernel

/-- The field prime of p256. -/
def q256 : Nat := 115792089210356248762697446949407573530086143415290314195533631308867097853951

/-- The base point of p256. -/
def p256Gx : Int := 48439561293906451759052585252797914202762949526041747995844080717082404635286

/-- The base point of p256. -/
def p256Gy : Int := 36134250956749795798585127919587881956611106672985015071877198253568414405109

/-- A chain from the base point to its negative. -/
def p256Chain : List Step := [
  (73404963663004311880882944372748989162084677934852963787452504780932599885725, some 18455939157588970446784565569990294768680858463148985486203132144235521409158),
  (94077010709294835327335710377447664151039924665152497844385509293967802434042, some 17298896760937059227330305219937027545027516809470665448944811409727345455179),
  (33744462628917865983834793244155171821667457958729417444696244301390630303270, some 8387993378041356477949655639557974465289092464874973152548928455537118027304),
  (107913590891339763586570404493579235631221433394439457287933348614175279065401, some 101003233829374294254464418257344890901829826342818182899314988635586641471578),
  (73721257366734510473601029265024128143084306532175521832108074613288196361150, some 8876555828433689728967995543578871721493560690139952555337855654508114429713),
  (49956987125696543163365212668095534913489426971516538001084658164266584232952, some 109948437634422490447830279134419453200485828462474525455817625546636263566060),
  (97390397146497799904381479216041063504071201037118011474949964806249578848990, some 80795057061897971965482161015637468876677908925054083149093637570996780002260),
  (2863198373610500399949918110425951886070364341102820926408928831592840243512, some 71360271410006331994688904586613698443173341817434590696907157597759098315135),
  (51126080295335133971572581823844994985216625563435458763687170964269549724155, some 79888962033259904802360558917474533632500779808228369548971036495638575173589),
  (46850464523205843886243776921245341504659855906472732289286950208063178045938, some 82049011324756130821770114563222008656265494908085865519616214292886089810907),
  (42201439154294479297818791700771876916847203434749601226972133501414832971272, some 106229803573881649611598350396230062686273437833329123763216946745938051777554),
  (16369000143941809568122550604220640176652627427967929033918855914800892906770, some 74864637590629841271644889434526088213686554986968223816394172184980924384140),
  (85828504532339093613948439770157277034585677272094372854877077371236919820609, some 38402888562079211472304434725914669767438316265758623963775124149777288339421),
  (89751071957125369553349103129348241398320786258275402481372613884233427633239, some 48320574569101062595938531859750058570046349045782967708548483758214020495937),
  (34715664709985773265095839839359165394965965999873560688596473041835304022832, some 37248782692036020521020669737805406328207687327370233795270532648280391986655),
  (18213045838278291493870867698552939027909371890434029033343490503618731527787, some 75074638462744125718406173242555052542969393379527878775787640542926255750583),
  (18126681452576708913690115356836697299921410073116988089797291276559687255203, some 33941616891450954805705669330052271694832463014175468224425006760649742799640),
  (12359019315060310917032739197005016724415949889120672299078257019083701473765, some 97083912142437080679547589485029058597639004210516656270168047934943020344374),
  (30515585219885793858330464749248875196356126394774453729516517453133617910099, some 110267629210054329599525815060142425545427637072042111684976991169579820038825),
  (108427609530930381850914169163551293317955785083770213857565809468341925744726, some 35425339416413514450781068052794783761259190696790552764362861882766608416178),
  (30691650196599370963318644943970509816940194974300637485985847860375531489183, some 73767845217005444543685506005800562251465416809330783401998790767177496318216),
  (49071446858384623559634441871506817533311347800894512251187197563364307048716, some 22450630627113671487141729045973277772287063472671139062531701894311032525044),
  (246398369117486413977576890911471786183402742655516259911192580954280129371, some 5440704982342684018714200785478436114186052156299448166630013479465655240430),
  (82678506781928985946802018409188650695288361908527353026283526523681701564240, some 19669252657087186112744025154571376666490571079029327241706540916226855499262),
  (97983910289160950110062491292522537945927030965029539953819248755688673043907, some 107262061509538212562233310537869815366591196390969006406860933473677048916526),
  (22563738802984906093194304954648460563496354871539831344128449263828091335779, some 62889323627600697916121077132330228629777024134396175187407173961560155037043),
  (67005987496533762522349721797619809259204060170617548162511399442010065284442, some 82429685953973276050906878264945482006473674615062627506726458009730692206220),
  (59077299646832384403024218860812434308990449763262064487472974654731621241143, some 88752914659293083658747571361229409397153103810318973189277166450978384821710),
  (1343658480667564329494968023201619601546375843270745644546888202610249725284, some 51348820930462226475679592235237705434821651794224504691040680876517669604028),
  (98132133285139460524292995967688519657957785888073967799102371520045018372294, some 25566897147176221927865626006409292431466534900743534332788386437570538415192),
  (10522125504155234337238927902569464210753398582770920291716940614301462099891, some 31684364798698599564617690806712112417562262411664129572319517563661815510450),
  (104555946567286389792370838099024471843493796523862752548186056154541801728560, none),
  (87185003277022714453495554820469931908587951283074689584489200932141184851951, none),
  (102290578275991145773391791415444759461835579959628886621704647429177874408299, none),
  (112058027311960515046957215189281606908195305841796123406856696715282189535735, none),
  (35597195622703133496610498550630992986555911464123311226053898227580347407769, none),
  (37869522475180083744938178272296846089239575967476808962076767218307516246816, none),
  (83665229526843910575576259414031858276995819118225592631556002006018963361327, none),
  (60335182151704775867089127284386192061139166715645380060226108072711830090806, none),
  (103914240160845356833661375718184690407466683369452206669011007329267126096205, none),
  (65177613485238411505762066086254442864014828079625793539882825440000903374575, none),
  (15529539772737545434017552474622856700691243879508790136671089732285884757818, none),
  (52041590357320812188780314911592952939662222567637978561852086839904097670844, none),
  (44208027075984209832175850560514316244267756793042514067404579604156518742204, none),
  (91093543835830246575737305470707600378346057465014691389200772227128643497335, none),
  (96683468364239097603522744161141487774024498519916973672659108720986278946101, none),
  (23424920283899733890826474375399335232920754552102446296160244673594752008246, none),
  (103057569772381732661025303597141168486015349579815696774445108851019854064039, none),
  (32975383636534723128906115342500812559913042624456542940875743952368152630286, none),
  (29312306033421374657803998337941799041079746503331297541325847752927339010044, none),
  (3523718244520710252896370731850737877054156053434087436586265151161315077219, none),
  (10215548111160415768543568451557008487575725124175585253488311092553151410495, none),
  (81951577729929157413203110387132521967274481918326146261944899706543581191259, none),
  (32330744057940606064883101145198740754467600677463422165236783067803903418122, none),
  (28019081833753191097233379250830650051986537991593640338327899565622963395353, none),
  (89073244518576954847657416195273430640272266786978618995219003673095284251163, none),
  (61962211466796988958615311639724952805368054717702688142287617637155752899609, none),
  (109477984708084453533422284642717023519009230078173916074978835741701855302480, none),
  (109452255664203710773423680945220055600392358242962580174716429819394862407820, none),
  (82754585743683568612252483626513796518135231100551169733965403856424916827099, none),
  (67467466162534937075719469219853157409778592346670008836075920744190097616240, none),
  (43314266832197949953767785670930736362857644574701903714992563013025113651964, none),
  (104465835838017961645031401180052788226065802478212439140119661152745229563397, none),
  (40433888824704258336271536647972315030123400704493562287218852330294374598812, some 44216710529268162414046891549780093496334490122597146827575374531218501436499),
  (59876144365278934484638454431091715509392674452599357302648928068816688321978, some 32359030787431714720445257412849822324102469276561757919260579264161647563842),
  (56203551763128327654531768901347769018371355303424711803493238765263140702086, some 45057232249507709145842390643763683625994943943885029723256644360441433744631),
  (36932547660878467631836283576359308756963275492677399552478681269060372871171, some 42350215630537327166447715060514657928305994783350484987106010657045220546646),
  (2693224745073671592862212954453662516554242491576567253540641814362455282167, some 109073439437102875136858949755452477051864763417703775157445245824761828971206),
  (1580777398428950574699406622134601119900822072027483458885699046594621085801, some 99169220883011493087861013489206592462701665499685244809101714124213638310671),
  (53934601693913925841579754330298328807877374229804727596302298856022120574510, some 103448125630740065054341780514970771334083768509953905169297624838914364025836),
  (71266446762930296667364111344496318848260631557046863706102625294070819746356, some 38151924339693841790591128323099021854892910974208234108791272434715986389049),
  (44835830811694852121535753625614692656333698361770254481481536109440386070971, some 107851385434318419149207453653063482913748439726773372537108017894687782950643),
  (1759944225795668153517223078070221470450457952709030339790356448563704124491, some 58170100431800387654725392059670637526943644751243600782416287660453133190945),
  (2226860557160581154197238865459755048449475007518831810849011261458621833188, some 68790034385760816820449684705196675587978383079065003016348337611953946971172),
  (14132541218166366383087187336884054435142915748710821752884044312203964098503, some 114340047534666139375435498518067279012006261201157205439284925701684062156517),
  (42647811576164397220380383567077805881739016950728576120794438802377785038731, some 26348877474552727900504180010476330428643331931316005360005209627044007109078),
  (45796454716196026944085030173853715099724790064072663103475139657256098662227, some 99363262547618985815543523148283983443545270477460807580009672048211669850766),
  (60290885286483127606760730269293518588057567709273292110034084327870046688676, some 31189068751628223367216017832296445760970638168249881365790536951927005656920),
  (75376560077569902168960370156851999683395728357534257441490901249635817013669, some 79043903791105920495539758888951962339122253190670094830084490922764513925220),
  (85280464371761146737831246805351656811591566421138794945370114847652802803035, some 90080193691816582707388867233661660782983693629116091637003223055008636707262),
  (42237647345310001547524403618350123895262698080690851238644748389409842178644, some 111278455460546278233663313366542494574203107254488985859531690585992195007357),
  (20386794397189279681995972794312816389968712137869427930344049543425919196566, some 77725280078880875793248386652513624244661590299681258942139076354706858173990),
  (29396493115743727075299279239166493948931974087399513865242606457878372438428, some 56597280744271473598767229563865763400574058557412762642126861715259121065118),
  (29643443909326599742580875537343350579870354660318719818638710910725626734925, some 18996083147106004620487401306268146017171489657266724183313403753699931665065),
  (31836145741312682450682951637273022227583216004789962396096898536213288400810, some 1368399364491949146849472283658319591439119417562139444777678574564880363758),
  (90408121083371702440526860270968299724040337520984598974299989461444677677990, some 97264794844719164698016074668062034901184896795973314795354056554441543736021),
  (45545000565044531843438025913757846724658800764670431616735711677075560416894, some 32689145857822880732893438421895733539436080824863921456042719109955790201940),
  (37213186937523465406790386754250216950472482622979224959220194266409264665320, some 19369677830855960389806917384222968911049319639687193697168982912549896094571),
  (36426315980861341057504788408495604391037931369655984587954362716695047141855, some 82046836791395930413005551327626014930261595231788492002287321876338487935649),
  (26745615262053412641849216945867523278149157829120528798387966873165676415322, some 98978728129670055138657231564231893937594926521113280060905467806345739686995),
  (15148507656381368504986185915835369742699375778098795139939265639479629670889, some 50224630036394627944152469233312140474174340097121944600386006942126403008938),
  (44708486093363082279348154236947005845670241551188668753546184529188289268229, some 59272986110841544540718009621070162947334760553921273267582227688600962719136),
  (95486846817518416829395836600636573110353539909610811183107487133653719372898, some 25260896594335036363303795675929580279802283719815437417781304430175422777177),
  (13351579653159296582462257321830920014073464705519674757137726952869360038585, some 81663576490703417862602554112581027273065129864450228964952202916567578220328),
  (72611794237493553216745404428290145642928229543419143023301726746837232504212, some 48261521384519712247049016141534583876967048475611968947939704851913111558051),
  (19596522164807769803634893593727358797513445750183555518568893517994301671399, some 28116684930281724109779612866620482441619548927075153437291661503492564188022),
  (88092693429984682181724954629015320626007791618380929478591052939772730762943, some 51689051411289057863172524143275930688619679910871739778477446678131052197602),
  (11854047979516076002006028091193027203787190153238239653377529112855978264498, some 74336189992139545040358732653536926025397938117627573826712725090280123466399),
  (51215761796391295945717904602192260047034233489227216504087987560930616688128, some 70965350222275731451579491853629595192742086063971463870478469187523831493731),
  (78518609376371656162430678203306932823489098162683976636933961182354431945439, some 6403166077505122146663138973061931669714026996117722364593835028266131043956),
  (108593070655756708403752176637920034602399732610524513598383731760823701647038, some 50799864103194029047845992409330080427219608424352762998410359110461975977635),
  (114118741713006124192882174805536986890647524575882280518848773964620831208336, some 13910878780437662499852235219962575412427193660396128642704430613085706583782),
  (90331757354632268321027062135584104662246051328067186977123696115011881915751, some 108189673957365163451328521172336381821806831295734688939791174066511662607459),
  (75437857566797857110795730324234335474090811221699495169193194819099921749380, some 8584158628680597652796699442523731343199257074369531990958623185753374294982),
  (100243263600570607090488290311487150544597119823243597100238066401593622156368, some 53195881593040850615294033302548722896587040134585818340183757496648609563952),
  (92130653824046831937489174785426517530705607173493590393347233137455294795871, some 104859257624140594743560182251257993316400336216182154123443662958230597253267),
  (68178528647516051969841425768436744408411647151767599740734550769743665420869, some 44089612748108169058580555779791816610165364393673312820090235490906200175908),
  (17451521664014543531482579630268919331376693971277522446683852976596763165518, some 96906415495142294823505426039083308792394526848599349938767840659873810293901),
  (89538400865952205701317630930181906330044205956706230011717807078145535913652, some 102620651583980271950767328001700136302936490269334672533985721919237162824110),
  (24574163339067322835308457867786445568917727648957631095181839769382797223616, some 63335460181515645749119064864380168657967371033405406976307758678310635625215),
  (62082474922921722338433972576907829425000051988102383015266531093489614870345, some 70059630453230426638884252446666336991759269775738254010804460306609635437534),
  (77846719366841137429004795124148911810674350637299495976557174602108201723182, some 79840554680527048203632684248648079821302312031943585938515492895625410500967),
  (25287156314192066902866147131496535930927892406511407810882897248712256635986, some 34324263890389706943022813962404254774922885712285719530044275966200430834555),
  (69798994306189430180870401852743986521599065254807479457866208916151190578124, some 21994125470207237252444091565986950016049207580900100486767267944981227325880),
  (45111355663175007673830239769112779734523922769636883633401761446248252466899, some 45084759124315329384230807823632340291627100211949918242724081728594796871240),
  (94277632649973053044561144707099488498265186431722108733744263910793547369971, some 31700651863198516272973033584293922564565454461576950048416240518363807681209),
  (23483827811966833768514814338169280420789730318465848027622391887783281292368, some 35121610555709880732556195523952626172444515003790060994599055114953986772189),
  (36754733072347376599463293883698525380142026461898725930746146341783895110736, some 80847183445344835859729052013504598826778156486967605447624871713223128906755),
  (59765818569221594819786233802602442922451981098777454317427210311236248614133, some 100884535391258230687122813027523409299278938509246559456960505350161682229949),
  (105208445021363576261651038183209079370178751141861540317941289664537054040110, some 20478805942303620627148589737072312397812962861966454453711013155157723186773),
  (18006066811992236768252063112136398603015125732904962596089207759128109642032, some 38532729146931432398682650934780358501531258354834415875491250124441444837683),
  (89070832977907102454908871221622886715722559040117745079493154584335445103560, some 77147799100643971706306427631227800222531095998375912525531112446136008834381),
  (81336813323806042663299861504312071016914889906523409867114508576841884388494, some 41203248499212552440188233716963027146746795981852123495596882429793083902679),
  (92878089192223236181381024883903546684020895199051825217752961548400262902690, some 104243565992663639038244457211170136128749737083730486709737970658698856896196),
  (105243468478750178513251914731101195855096321965502306522303933689887742746553, some 30819978034672279875862447608093499032290931761010951166068689351731373184344),
  (45324994407792761697348281395935684745101395796997772543888716791034777621357, some 62364423143317259892418252210906436460106786043730228759228469381054428916676),
  (64876024468968442277689677293165160528383170714421475513954578528808017935031, some 4382536497801851170578259770430246485054277942940866491603708568747940330289),
  (55969133456263714299638216720363235988229734244649952240178357678090082805582, some 107804575852664949826319977474716604582315784976915925680175288377544659591719),
  (6842696983610121476693140985605401006067463571831801628639890206183594301001, none),
  (89227009677593734455092424151312429785196538269746284633723438410284525574923, some 39467874897276015006342227972849938852858965570552618109012234202944677283608),
  (73310905249629292750573415259896839865550003071437965445839039175371403888488, some 22494629369180603217228501492268032106570824285485378433241799110885385596132),
  (89416636710036394747513194648374672171817283287492827933039381731248729800362, some 3765544845208169229761921702290223046713451272130770172098900687846335328213),
  (77215402206150575994212588396270822213324313165272715872521897052444781819957, some 99131600260434464403077990764984231342750973343807824302586860806343917794402),
  (46722349102476586499288377892754313083828035907015456683646369440675137900695, none),
  (107817413956952308000485590521940549430748221876636176457153376876707234427934, none),
  (92981736123359439935143501970256591664663013732531879702586262052379832131327, some 5878779294817255955775219955132645617733111632067044423936611468397108627693),
  (39066630856641836027966188058037826613304870756998191149949319795315952277505, some 7023799785834031832279160125861864095484483118356619039204603143653769966430),
  (40620427165891173097083626369917219701345398952624445003690492856578532213334, some 86678614764064862357971136219980302309746202716703893531704819465307072826150),
  (79287123822375383354093906045904910561466342133298098142721228520519570063186, none),
  (78400895777110603117168578481903086034393874045114718378124233596354887060896, none),
  (32675901099753495025630240846587627568888473791209307200609765835956424331558, some 104697821467469492652224601606530318349499621419886841330525396996543225358311),
  (90954253001292348035464129968199094353787897608900086103196912805036115527139, some 109068273969296649278703294035713251373939019245975776508860276599239128104829),
  (114862052398668680947305957849925509680631844765463026776421314838849381374135, none),
  (4451733364738401822870649247743923122274642171473347653566236810616110798908, some 105357305042954581406527367139519673843600544214290463858437591558254409566960),
  (45156431895087167574693291429038452773895478090702165922430635530896388400010, some 96751341169405603503181343087217972587776942989798876857308945166899429449691),
  (78949794685319288503175268641086420673019920730870338857908779100069320789469, some 12528443965739532406872468611268858130607615096904964879682237655992719012042),
  (17612738457056860441756967203320311171379299392994687504756784503351080687202, some 20921681899761880888294787511175123879644293856460673466479011688680124115644),
  (61264156006629702044199557864519856883258104481925060514728847644073704549298, some 101487930328126816950102324460846860561502366090510408680222703137632149529942),
  (109864625962434667767074196088884114323664435567243146764616830213554190827562, none),
  (65683043189853553149067422650195529016802167620052711059299427601785396928068, some 97886237573861015232340922830031684339952065489214701718338155032311842103603),
  (56334292367403412662410184013920056314386632527197993187742815054829687643187, none),
  (24322520934728692067295441818256374567058904112093935855488214825113109368707, some 113427146488114381489980164526839616474260951709515817980744174520190862727281),
  (45600249122893859364452937197636300452519698076589744228163916002717878942574, none),
  (23860765095911696355536101961972812137820573795768394392290577904457982995407, some 41555827998483151334214427517474012956070046451938093854742879319677808061014),
  (36331752644874193314589090615138944831592133580386863353585736361415845879454, none),
  (20570457662390503157837218165847138635215693353048658823114789844270198965055, some 6928604201116500537925197527104799797426966374600335663212083550052627274827),
  (90503024886222466445910956539242962584895452090818022777689908237001773627394, some 21504978398594920567190744045594138977339125411268175394819410129307375620569),
  (103389442367378709500129540027961840949701588261070988894123721595032406336618, none),
  (107557261614453713906057672803816336172929968943345861743745810883526585690919, some 13791487654797255041210029727263067456355196774703981698496244235868022418801),
  (114688123630903849386319660965126768089496745933681053664721587986837568231017, some 92699683356705463032989917143982824087263445638188140108374483203046691016236),
  (33568429453957272088637597505678673438124695105447881390688209467723578932442, none),
  (17191620986139768750507542130154500389037514165555603718265466845447421338082, some 20777427694881610050827073052830823461977088995420687290234880181088835477747),
  (10190335659228560594655225070484631712737660236026892490421339568374730423976, none),
  (20858386030135550732706536658360988526219833157296531524461690045786227812773, none),
  (34719946098369098079110893759984119410080239870564230614132225195399315314060, some 67505429068685431932830173846391667329263150257983496025170360458468726928976),
  (104700292323100616370524927958144411601500412924979194192782814446735411199899, some 61601708860008520747753376843703952875993118917460273291902042291227696622472),
  (43529639378104324457169140601940988150427167069475064464366644546707572726923, some 28034642018981874676193437987174878705820206348941589398638407301158159235844),
  (22847216734594786264978517006548715017438690114164923016774000228003579908888, none),
  (57006326771675166938253274640014290410987321212691641769744593278470657399320, none),
  (61188191400965538014465498456641756873627144923558166504983091519199122563709, none),
  (38427815707571053659690979624415076731817891185380229328471569875188852606809, some 111078335344839620088504877408040387836784782228456452535036502485174999068425),
  (41075138505142334263141879168957541818925770159420674030524089826345798161262, none),
  (67160381721388468816860281693784209619358740254252827339582230087851433243252, some 59294238945820065880709522772662203116076062726221255280140838961982879755246),
  (91557825219255575652534467137894351858668188610376173534029296284929482061297, some 67086919321465504627438952929105647518201016104965553581267819377672377894377),
  (101397502575784632180589891948016941599896339592153044640853035655775307777014, some 76412799763477606375698745358211337982947788309479137177885645997365517576219),
  (63118030303642548378665323481356934434914000326802373588693188379029970673552, some 81727193064488394472606592473943845666818416165663032037453473401675589511090),
  (1365880450802188703193992349857055150017525649617494598184502591331820317828, none),
  (24249466901890466523356922091875300977341171605656217437690630091486446110563, none),
  (52520149218157241666968569457133853785247467428819614894517984140707789543308, some 90023917166405953124366167411819741222133367114937032034517615471995174804608),
  (49576759368578869511451818201795060564944153263268174908232882000114518463844, some 69719727478591150579129951276850553146094525256362102802997327208206126714745),
  (39387074553660814856284832338886959955026432518842662514623031493253605354284, some 24150939270033518108471627256217685479313948887890991469507527819823802326839),
  (40794565349924448048018282647138841547656206251743342719578175646404503994932, some 106362391830013531104601240317014741440557532474635442086224537832241530169469),
  (72544474712471297663693408796327132856162737291129515811037852886770857667610, none),
  (72221406740123949453687156800891020610818798093248675472379810954659572267830, some 15854762726855456903853592208127843771278673596029335089551869893594102968363),
  (38193310340305465208053615396901143808178965853446075577001410605526543297671, none),
  (57009442585358948283679804494421846286512375799861877656875590261272444077600, none),
  (6342663167678140050046339311707006532603736078593584660270789761940947605557, none),
  (97131743972107047864310451641136806728140869932903710646063492931157017381045, none),
  (15893405817092515174714779718425859383547298242482376130008291033589485873319, some 40855092305992633435026348101060346439774943148589808981597675913911554361604),
  (25721172972147193763348371063863201309009625264190974028796506816067020157681, none),
  (67719677866474259080646649624365071025163027001740620961015898026559041515825, none),
  (115038705721040549955496299836511775907179382880943666414106641735588680302947, some 52440631014883964430493410791658788423099095006036779533519039688823595042178),
  (76994695236887114335252095985052418517097947282561976881434542118626623073798, some 99640968817291275978917744002037467344886262113767070868681968000720889174653),
  (12078464435114838399136295861599407256787671833192806866232522567718144322002, some 66130196829682072558770075227475827891294565616428985468520678856955345918412),
  (13981377110660502333545653188764445074558706352404435223175800578407269784586, some 13347430286819234240628998565208152173989495759193151090752606367930559580071),
  (97931427411243549066540555046649563010001251023341015271444019036481726177659, none),
  (23916383908504127320814920499247235338071943260790068826695851199774658532161, none),
  (26313340593335717918581901439133208303068203838844827384304076969757474910972, some 80128608451976981805667407082565726742997875812361182778264223782204752255967),
  (32408548149079939902047627425708216530879846808358322152498677487820947054329, some 16010101701891125666896969243601564372730495804971055803867278630183336338004),
  (49444381710738592530283467511948112497508332384718783907767430114922005351536, some 92828642277081366569811881538886767768824527756612010214661724621696417552003),
  (48319616541892761948300511088731867773797509517308432235455759078303911340162, none),
  (83256453897004885747416333287163591597855537401084730349087974962939459868896, some 68571215513029431022008249430271836302363194579159663168424939031982850964201),
  (17711232392101925965222157895168584423974928404422476521666848844209071882853, some 40061894962387627545028357475016263837596480334836870170656706475325765555795),
  (65018201682654616204826564250923544344726438484646211354657396991279714304043, some 80639074148519625911124643915170327509025844317305379230475078713935188556488),
  (13634553361178251300919821676365112978366182598744573712433944080389322256603, none),
  (79372263453053073247238091694958593899985338590758992589263680805139040634123, none),
  (106221720130811713274006420822825952553453851281868605163143221025034427117790, some 43397126114913356459098179214386698510346771631844608755117167122149689871784),
  (71271691688561222477502904152573958440968540755517837557340650451458965781820, some 99832633758149498305202074410515233217082213191075953167089849402873244722024),
  (39757901017891700884131209795226371235400392489279283652421447965533388200539, some 52780034181730602741283877029475801174871771490591925162455325072426536899620),
  (112899048161347407461053233929617785911275408481364641445520462256580259958039, none),
  (14240764264428884035059087500334795182274960095819322710721277045654501298711, none),
  (7120832132114496431415615164698655765418543566781986915004929246328975513408, some 71169160650287362263251096980907469354926136363821741313822650470003039629713),
  (10524500947819599246738599106857533519075548878864584680076101042506218288116, none),
  (91888230921955245550501605389226550268587232094589727374310301014323294317743, some 52830449137875271882896876676085542643570974698399403271147467955442348229765),
  (68588867449926396854193278619386521660548956785015474810946215001524438754610, none),
  (79794116190992081243503321414503006963797780439363841565792850431941777486878, some 82990656174278792072788400992532911274448062812349026533419169279507588848451),
  (107993394619758876514650470945288164399300550225498061501312202546186509557593, some 94700534674561642518583986861475334573060125011608063280154045780982983017587),
  (94748858405437480314494716377738013592262933264866181994278424195654017933147, none),
  (110090688395069473002612821939944391235001290312777969309929959957043898773260, none),
  (86001537025197276084803175404708590391678700573696975715364854235602973136960, none),
  (97005571104555948580875596805916334960621595822566663609978083122027239592845, none),
  (5488572262402578378589535690094257829783448094408686017389464438611864649055, some 40578906946163154587196708265429653145500949959917653841457841881972492705405),
  (101140014554495416031849415469571900099789317226481011332243963571339963416081, none),
  (16278666112491805642521111162076401747277431823155320516738715560329681374032, some 21345816720784850786792028968414120249176051183684909413893802656026397751116),
  (95794207916375400612188236966684198729475676497586325686640014115057663672899, some 38304348557891290800210679145002838400863915263157121872424117143473436213363),
  (40989275867198528837818580904723583202505947987008637716933650594947933270569, some 8136736043771673704133559657815533675907176794954009985820969679685243089964),
  (1983232849617585079203495760165156249543432121805775384620547813350167873265, some 106676845953096210610777316733001385383022150506883365694274546126522617545802),
  (3786231895749059258258768019942145916986244434851588761732210190608888881140, some 7003026393907079330124421657796173856970017075690421482201530465804750648854),
  (107556547398804584965923380679005314166033458044825653531378549341796870787135, some 19406443930254259308702488169491973685845707230826441600404434919165866969626),
  (396240271226079312112517465191825215228541380447435716513128138844604463093, none),
  (114367016617795868063316635489429699768417660887976604423339920318351359214389, none),
  (75650478868455130737161608246474597750229468180929629630299859916819150746528, none),
  (34405168371249009316530766693812821725953528615755956224439171954328966632374, some 11410590726481505752452318122382805754602791070942354747092762466609424055997),
  (43767959953551064749725749799455751318842064246061777680432428612080005337377, some 103769124508935639291789587687202094118792663545621823180027379108120112898017),
  (70791693820035661909893488112240360301525631271115123675622043088505748150556, none),
  (115508749928134693825986523708005402895931834873645566053598291406369816586513, none),
  (22625339349373815971839050908913925059556493830438786052004236675202916178072, none),
  (77425353538430382319431649294292243780356000259960150359559273403798565258806, some 81326155548872198574647417018727751620474480061940036426480811840094543203214),
  (113053033931809680513077370003912173079985276093602849796762554914199443229024, some 106674924911319916945218014589412756120224705370089798607160356512600393044261),
  (30858888317741575458202316089213416194109987323505464082228500530540415253863, none),
  (21374995312708214987368883756839090584918630701485846822280425151698232796497, none),
  (104049711252471366021942165911671692181479163149217110694787277348118447920953, some 90169606689269173572286554834776073159084417604997754167679330598390672263828),
  (6165138440403801557327700192285563912088791345059351429933665095587586756367, none),
  (95638654087575220865514599927390236309670371176143459303804585300053262321193, none),
  (93507096072782988905319625336485652224427812863632882600275756722876728702100, some 62972383805570798408282104168714462313021426670963980283421176680630504350744),
  (27716377618015514619889894330877148387406398157576843441599641773290143662646, none),
  (20476764488075895020000572145857444528920539241959680410301050806531365921077, some 49349310473956265162745111685043382946407793243101688113952424611456719943583),
  (111172097099719159000974537484180927862914227103675072597202747239242612755976, none),
  (105183041477427711256856663297204403995505456076753037136618489836537156502780, some 114992393277685970062266744656800751353863595515615363557585899852898704712791),
  (8992663570177172605521845414261964924849228246651463797454665306269442345062, none),
  (39018020149987714242246986945594517964680254843919629432323122217991705229979, some 70320377984314827821838576231466289945145144328243863501102399004713003907682),
  (36661228441783414426633516774136062458879704552082600183592120886352783423353, none),
  (84126526462178050181261884823144887717190756184101848216471003771620932292296, none),
  (53085063961662281017418079401884276428623126487223128912759648345435944464786, none),
  (59348699254776951351374474789973024249386570196781804898524919173779757720106, none)]

theorem p256_chain : runChain p256.p p256.a p256Gx p256Gy p256Chain (p256Gx, p256Gy) =
    some (p256Gx, 79657838253606452964112319029819691573475036742305299123656433055298683448842) := by decide +kernel

theorem p256_scalar : chainScalar p256Chain 1 + 1 = p256.order := by decide +kernel

theorem p256_cubic : mulQ p256.p p256.a p256.b
    (powQ p256.p p256.a p256.b 256 (0, 1, 0) q256 - (0, 1, 0))
    (76626890310466861426869089647039036757962535851890885406097439786770458211455,
      74462945259064871768191128030512052509059297803194871526163573358218695456204,
      34768139465301476436978405170953382516735956999154666452188405812258086013549) = (1, 0, 0) := by
  decide +kernel

/-- NIST P-384. -/
def p384 : Curve where
  p := 39402006196394479212279040100143613805079739270465446667948293404245721771496870329047266088258938001861606973112319
  a := 39402006196394479212279040100143613805079739270465446667948293404245721771496870329047266088258938001861606973112316
  b := 27580193559959705877849011840389048093056905856361568521428707301988689241309860865136260764883745107765439761230575
  order := 39402006196394479212279040100143613805079739270465446667946905279627659399113263569398956308152294913554433653942643
  fieldLen := 48

/-- The field prime of p384. -/
def q384 : Nat := 39402006196394479212279040100143613805079739270465446667948293404245721771496870329047266088258938001861606973112319

/-- The base point of p384. -/
def p384Gx : Int := 26247035095799689268623156744566981891852923491109213387815615900925518854738050089022388053975719786650872476732087

/-- The base point of p384. -/
def p384Gy : Int := 8325710961489029985546751289520108179287853048861315594709205902480503199884419224438643760392947333078086511627871

/-- A chain from the base point to its negative. -/
def p384Chain : List Step := [
  (8858842858471144062331262387151666203918307921945614219585344917679900808170212843923625889334734133933313673772511, some 7109104342236609320238127310982783812856859341935727897411804600206190907901433187920814581825136883215782543970557),
  (20590956498984373688705903497760653117129689471332473686220510113577503369506072467909041716296952770988746508164185, some 30103774778795941415073809073706888286306045432906745163509439884510887628032802502049517073979552625851800868520045),
  (3354918849260294048728264271200930420995689760791774555569627453269993889649844683537144057544653673594832970426462, some 28624053560730596840553832462786954759621521941114731308774346564096341078830355438319997965029044200566999163425149),
  (38886546409079646831399351654321238291202204525571768292563977626553704278259531611303848170620386536147112486792439, some 4339021123132810202208058425508046969588541076480156658274265177599767335687018766185598381322799578665140256675625),
  (3094502205714308724835669596579460488988165396138748173089925247032291144972922055248298339189318590491902431766790, some 34227447412343926627748119495360893537622451449571500639612126588354812933170137346667483456879047201271073869934556),
  (138929043871688382233005781832456963494260858121222254521428795844967452542972445011728481013828274874226374032044, some 31274532636386976665826026630867995715859530184024196387085816638876369101318840904199637431097696829902846216418388),
  (7477722376498370865757525504538329984283763324084119598685289622665139752024988104192201374188250641167047846515934, some 22905172906578432194677176758457650343133273155317297451328807386445288358393443839663048709580868701562600889728099),
  (15627173403670620584229226543641029725516763556742737267883246280212036649478294285226142961282235740451099281190440, some 13980026780125795041267209741912098035953262125972157974707013174989810795709347230504457441575830177517028133365809),
  (31185409540473720763356188244729197761669023096623343169739501200800501278405477311453694001619582876939962561847318, some 15126209683384163930493619694923207642476037100917867765030597039497492809868669695176370760344700524941807861662356),
  (18515622666218721141068569777440163998394935667963246513543984197579436834052767717211290011687498201565504820495160, some 18076410575098360053918491390522408846349012574862953920371619295787414338488949797023074819820067179694113864267986),
  (12943609443116478719014796414750762507766313711771126628494414056987197538444838097871939060289482347275938267481782, some 37953871540461554094438402111714451211777715457929477751811949841634475661845005694371780979496666115272853754324911),
  (22871749990233535863171283355786490581106573051656039465688250985804241893791241614673526554499786801410640327207897, some 4037762632446811641628063261699425220690895480200539049776249472741717201703716367743241286280540141662103431071233),
  (35219165291448697616446859369760345071190334357529304029695260000435889687474269489876505250622870278246428170138959, some 1975802821549056578464339763284473036327293568837340276994557271727612377125953047734142792384601846998711233414608),
  (25970255198114399644688556546298837803834729301424809388670207965211933761251027276308170247105504777262152168733693, some 32117666154567430266245423277966052678323045838903586231474554648470752426928526338679486951535034253280837939593733),
  (18283383047239564047910660880898651011130095952318524756450257204489624950356879674229302378225470433768211719547852, some 4288116595587598188634950267450965752892937848321475873757647047005035935856134667669201938514128969055439173320753),
  (16111781078183838779114936804359130738607883020216186656014265435316611375261654239247351294386487074928019540950557, some 12475511578886850242532542958749661397801323727580774382109664867266268019346911657467204884856227039084863949622979),
  (34474578071832833068699623082767157178453501152974862090339713533312437230281918368679431033496932339503808942762648, some 35569676487520859322804428821148687460753880991998792499971836723320164497888430223235230103955117545931355056149215),
  (14091017013706053112069831092629618686788956939677114132958677157949471079694766419333244818591825389451472821973266, some 4633996484943548548817975614743286386679409450608215843760854466102331792669203798672142630223098640358856443258651),
  (19973357931541483365769262925890049759404763830896837792323813706342257371874819386656642245399427232422729269967580, some 24491012992710367910028481283691878166339994185768276145579507197401054426181393449699903639708797594562122842635942),
  (9339838076658215874832918454116292915531399012954873823761421381305910454906925002037577536082513489062228141446842, some 30202893557519739589296488419927422705165517342288318541366687348685731708891838045213020574546065629842288639439476),
  (5242436864139422560650317561202013605471827355345424297780645321012417639475493306142365131045851188127874446934039, some 25074414788129714563729930755641038279723285387074650291780278696670423460421323214498633816253977656969917291605753),
  (27241444318347934310701107620488097737798901238757521371555073157757270485126539720235636015454319134607749407466727, some 30985273117165364183947674893223829884718879588207580166050053821486957931008091538757592526964967828849213615246329),
  (8655183266115734453635762243578485322021008414642759159445514218189167712667031539840825612737055946100792205360931, some 24248012452328302128643977955457627462198208658351368755557909749946550244112395879197409281714224401492808362192281),
  (26858082145253059774039283724850654796706002102149066796329966643128575330698708848265348467062904741469901999278540, some 1148561647184831689805554424802424049635596681674376909080567406253713490934795813823515856444931077275224587740276),
  (38938552475427047947622665183115768782446223034603247857710870426219521097807290518321329225766955501823504438914032, some 17996490654109783603720993358598887427453063698589647966872854370777537852354996569017425691336426621098123453657443),
  (10370517720641041948967726270007711874012502912055701783141094368202841798694333434908771369538576134818844214411568, some 3971875199781766144905367150643543217252400158383716956424762714811224177633234737222998320101821681573659188862090),
  (13143274895196014162983869891786758749183766028886551537788417247063950478010614128596032053614647024384910284437082, some 27091539115270531251838843580554143831451789292851846849348216236012899226728447780757609256640144133884371455176270),
  (23666126404558873938513549164915520400382170354181977642043558284051356409276341491057397347084809635452919065457565, some 33092788669847225098050928386151639824540466559914339154560747349376650456478490576815229935284284412537267236438854),
  (28477803707725771396029249679582714034485617716873181663724343786840080156777012023021886129772693913629459480478431, some 19508259088012428837872448667447470916052197675153759186180743481230889418515585372347326757003945996150407955317477),
  (30642734326566713262229291148753160909206097512993019053650987968459499873862154338955662798419806170434977654269005, some 7908552670400469236397634363928204327909045606578171888344650640258099742574299640870130120203547187167544702734636),
  (5463810777936094875750201192774821808233058197408313313043905137193019083003623995295610794456667409983204574632399, some 24195292770963121473849226066513831735005014878990708757002183209175438234961391742391459689926168094981873182856048),
  (1547221355009032755451064710823083084291868889788528609329003505340570212836767383950038855499702260532382586637531, some 18104299022564242731152502093486477946263490442536033080992109378208517026950496424366684017273589705576892187924922),
  (36693064194560380847437202204241993792072188570806480294203730017552999587146878995301763792076616158851444457261152, some 8929598453861074433580088911194038395844807305245707615861803929188982996671145788557161897780617771205290817603977),
  (8474580691445954286956559906563783293360310406882738165202984805981848182896939314123541852559327103546822569186658, some 26131490652795074228258720279891455436812929590367601787039942150775092984474995229902533475222476465877463010500715),
  (7110982503085691666689161940528358081163057809388488721130821885796341270346347558475753994826490381754597964477216, some 20899333748983252328281931116131394155574618730816154576181250031624417504628848976597499162338833598797949089163221),
  (19634750793382315133217122868589237833421084675045431155847547846758221644987345142545473538464240487845036386791518, some 29349130229471354135464184320509159909892732221189894147263635648629306250137979801894821969744721250727929924920891),
  (501253789726750999253285811906342245126533044296714834939257120627443666511506682497477627256894407108100956308974, some 23864733036715820988558744608306185173455699344826571404273509288148725792376226626701215539501923543907602918091422),
  (38352790797092809068362378322579861807877864818031076041830629127023021993307896108173548014995408795038281795836510, some 16722513294674142063909947784267647225347524945729479567586546842154450414446049084565523312390476387823046184264587),
  (28997211683840396006277247875710360688253676461548862778526125195305897455930668863682914003249958331495004474549579, some 30031265545661242084237980885659412603466977040614083327006200847837422379923599717210018290955078295301125337181406),
  (31864853980626070927237114678660394683026667074322078398798523706978732806294697878924713617979593133096361653736624, some 10979608296804037240190728838784620671134032991397488787316282272103300253829501248196973950098390843433512974913025),
  (6328682235613273845218680076729795172509184939728591753269174665237957540170215277840986337668867050485697449830899, some 33234271277214738438366568119593675700874877304116609812048628279822766588169364590258179445698357610245880759595546),
  (18941357584803838579585291501684706825751402000464545064283345652232049769042898680234852201251373332940253285973363, some 31731857718216725816648142050865791336780096771942172497868938597596525665268171722563819512731516036511778361751560),
  (1076704508842042738596948218320898936067734490959869604023522412470563041356772950084349730188580654910601091901615, some 6718668519604067168256111305935247107056118016184575989501228301189992226907292202998052441158044973918465961504577),
  (33818668852126545472368427992211747824180949689655281307977450872276331306090168012212648441812442274747033375499080, some 17142285302399497578517077406495848169209511568216836591007425148378317654652893159653158081432739098238998171300372),
  (29244651834966339454323356524308274769955485047435474748311763326571105692264531999114418451618880172695101508200511, some 24767821278972529482127858703558881495086491778387481354811731204663483519593966529414298481966519003848525841242364),
  (31980195822195849651300419165114974712524750944013892317652583114788514335753702119288104800731019459663742627485186, some 7726052702564743661723116826122707675606691944247074074727520388926045139174377374486440099569382626356391726010238),
  (1567868416717802525994348874373889246071419785353811976318494768512709316190030457352750981673132949964680270189134, some 17632049123566019782162527886288105440900471777750289974952478024065825087686051262605719557232709672497981817071313),
  (4290761511661717930386650477074638445092791231502102171777130078411043274132837197443985943475866800833893426066544, some 4255931716873516277795865906464963145559315817878204970958951394819652125670361254334876975375038943441727102706163),
  (1942631704870056193724973088234818792891123167225569743477665077983417149997773585571162560474933152782026131869642, some 14637619607167885636412462917447387552387615482375298521643140446022231092361981148186771844717111564505761067482415),
  (11045019946918457484423332053479317478208697226913178794481661362653659886946186191543948829277573046914385710623159, some 1287320249848604884426144893342363931806861469750677123598218485641323945278722578104738272238170298030478627068140),
  (16494512237401900725458347631163425810316741331995368845126965981094692632918180022486047348233707717442814308128232, some 20562481665256864382194834677936134178857921365460782624224247763908096415879237059882320345544485433273543330776125),
  (33836790568831424790323801723025519259916813099444009578710852942133496842526786353162198471793333065444624463442086, some 1481629017192310762880963579479598202783907985512224242344455863487554953553056519215203847213647073176619929991021),
  (12878911200303446272601978786229031299102996197686784574013440528634330699233256582630275021109280102450446929686645, some 30009450880632995236459732224239931577532966904107025895426049083579482592637767705790202390230969689209523401454625),
  (24724766090884657076520069194686044240046146482764230378836034099158620023357961481079775490715197989052391344373321, some 16312640145122256482526633993885627843338681035420134918334679982114338591271624048541888748035533009109205924704723),
  (23093079920670021682916481902606871318885436269187719676115357585094550732261765188273248224682074890856796719555704, some 29318722533276242679516095121650650666179997747113003947742028505691280814152850281753041036107223443638029022076003),
  (21722814273830884888232287363667844771025418670219436483718742937259313315568937676592248651856527321186080642265666, some 8300306341193792045314423133142723311415229110392218774390336112201018055606998229403780198694223784872209821310214),
  (5139278308004853676551764907648310272160364678192134624122011344251829240682326353877145621729207691839368397798548, some 14176797948174229871732105734827944566038346169806270464044174176224416025397818922463931186333120546522751880821469),
  (29570973569663376196785991856505096871166785710286288743566549046521860144600568519705302252407631051603545159793836, some 37191699770315460336866918373620722274011407625322768724847246170247527926719586688107038287253437834902421073802207),
  (28839638354406987207927674963106079913399500550046007647066428447641893891289262880996429933255184997256793060573644, some 28102731838584601499123735322716109879568357284221495959046336091152445564838131341726720312229932771722582454613626),
  (34006998891433744282678529981394308671710082035268311083782150917126622745508767460215668646394093802364848152929639, some 39130038213136706193079839516520853782998718843604899951310284221306803245351168769236033012370939786788886901626674),
  (33863930492567309901549761408822568441509987557135500572947988229794512152046353869142003173988256546717999434678352, some 17177415774781176126514202621985623584166483144312700937200242913306857289395570505234160943266892425088808181452256),
  (28026899914586889651234516196026493278390253520245680047295114873150231164371143056065113822676604179079712551417316, some 18978593962005622209483923042888481118750742214262809044372628431705678840002617852624376251709893004029171303601645),
  (17120461394733032330016010276268461611779965270576010043153352059972318788768062639555666934912415357889511140592005, some 34176610554875786916907279777628135027213402345402109629454572355318902907076863389572058141051161644743061600785756),
  (29277984866569385465375903671907672512369700444739519059508321949475714119998917708848940191899382295996734546371756, some 14220085487667022183511358386511276847460631253365304770499267274764881320925714350712311380269020784709902028291360),
  (14201945554127692404684505386431358463642838730749609800647651591742879463330285318393966225894317906205457693408680, some 32391492905095318644184300270438975346281360868671137422281447744654029701025755435635472238229068678233332379972993),
  (22918471704129301385986175198190291938148545113972285706414120095058157462523222996651151023538647113388332288732867, some 14054623448297702638186175551803346821154740982947391320143532260314559473819414152062088360809957830118777273393463),
  (22589276949223455450194327340669769802738688988910167020913252386732243095165963784432814669563611862898026198756517, some 12614753082814639142540356707258890911091633427054089476594455630100952676827196475926847699080652801177225451515297),
  (12494669500502570206063542821985693216251435814873494034457561291677402855953505053079548487157137136061774328035094, some 23678565026825532734370405305954991128642715277355246764557190819818962083622394924825518961003576785645822764232741),
  (35360953355798478714287966812990301874758117719829821016837986426566305640483875376725845125721353669300667425440320, some 34008264903014267720749860135643275190677632565374535146323558963488828299810038350431402476951490453013376327276453),
  (38266949580391188940062228431056418486776971012190586774400799238791471887288798602178411571656852085873758121133047, some 25494451827139503080874156113098273264749153753271384069618980518061115987113826968970375977934930238631245809931952),
  (33748931716338600223346815193751311715357541589899166650581980455815046726607856591404339416798692458027713567807854, some 33459962260096086087277614461588385165031390714381037492904470287575945751777375043664022766286397010015606237768233),
  (5344831596747913169654753716213764634289227474447654500513100058098617560872085557306451960825516011491926459353317, some 29138991092888953502259717866350545270961951382032658303572021004180013054421666417637439048813047194439976149042843),
  (2261383065058520920477547575867989422009561644732798366129264636059659758968374515035343966978018263530709825435056, some 35693486005328334319335973529368679801557565360697802510204705753303866971620855426085747227444298910617827289937657),
  (22982829368885165101160945997238908576077587434630917323279480457724758527800629462685146422780034264357855573367623, some 7983999955432980906936542695381158436799538335510320696723701216913142040853361243329461679714436379465191133653532),
  (9797464509991198536450945832380888394543268065572032643991685632271532216493771327711532321468290527861215670176834, some 26648253336088650344353256099835250060658251461538680006613621752386979710463837419361145318440430697575244338747276),
  (27950627201310943642890617503138427654510310436395175768090484624284056389402717355312240606928203716181882172083295, some 7684257123618790715828486937236801376666096074285800712856874000018382326460454204147933684756658207855709595826375),
  (5591856725600763253865786203458890652630568289559519181141256533090672080504233099491117531815213548890974209054624, some 29214454432211798320574277021841582838510682580801616426856577069706599434888919337268781908897805553772669546897466),
  (5415305954522388396635852483667987120791039382855199320696159763843063315289566608111047869656504331483413221361824, some 18511360391825869826913423164580692610030066441814980117305463754784841830755361471228279563752365559490576058005225),
  (12953388217120576651030858369735616686169610771159732444902797926226035190997587569336549722088869467887973651672276, some 20195123800720503006949735651401032589320712292062343883222601005222270938654181513911473253492803958165193754304886),
  (718959204317052012069583592286176291871498824703575999137051845594581030778382236970071250437450384275761994693002, some 5554358890155909678796075514623974144524336483853048329892955400139761728869053474382203889390968500003123525214396),
  (28232506141050250412935597748948213048110355577169940393220291878872341553510717592348316108628472156356161090560141, some 35281288235789215896112965779224209443043898560189671003238725138973627692296161313532895656110322851341136591081456),
  (12257684313529952979025438198058116463139235369463638388470014272290807575530574638610192784903523616435549034068838, some 22961507689242843083450725761903420733164843913248448009708816457818757813403960350219769239644192045710951817049015),
  (4518789852274771035366322372720859569927221574867878422025770575628638874433801767360365308691816164401904259701491, some 22837891165613199985564270290503072697460572582149517627830409533581070129857664617897278101004304991090175512313018),
  (29369962858712662212222614063651838260477758199580789343549143268895097562855311937257958284360374932073535519378095, some 11307825914276015987055386862684943730540941462834801674291601055961836217640442852597114372280854902321047259151642),
  (16632092012971065504994484473995453472610315237008326758026659092932066217822565220811839316255413195411745249428130, some 27792156493773862036207220571535534346531581643032116750243322771990890487672269541933330414046262349271422117267717),
  (37204394950253225899809867651895390949777119671722853109913816398918172077514640428717475867050636447641820523638103, some 3255344048150761013481669754815166021831683858580041839663902494789707290630724861623656639508148993926032018547505),
  (13055027455658987153266031724219528478976721302456701317490995125508840251200952697120128757107405136644025749221162, some 12015168742700415385156309800233368437747652282797110540067842264249313444492347101176228035097663624438354236643572),
  (20734120515713906250878414298628982818079046219028947470306531071715338959924794113721081352083134909379876011374972, some 34405953349237136287968069821652188951695077407193993263337719405431782876435095815603633426597108644886266698182814),
  (32706409581565520504881098366183876368925778812644452521626444523627255376441385961828693691933242925936228615511679, some 18494709251116830357286417144147032671903464597858478937994120076629385905022207402447433816050504415938080557141921),
  (4997001999205452593222321533847624377005560963506462284854256134679541269274273309504776963984001507490182646813940, some 26146368561039164821447239618389523782145149005598842741948853812252793869785127556969068229041053784515171361475283),
  (9077007498913214513452958560303450279317224979426408378737765817638487469269178493301281882612994985369631295664033, some 26103818936650993260417964453796412046440334627289719845941600276180971459489706891862371960016076001651693402013100),
  (15565895845291421380012002724136678268834018300110033435116205757391959550559263076365544801992270267079873785654050, some 35149025730127738352933572986970037781850111694119899268046648106313290596125873561386657008090602380271056123102613),
  (18289310453374593113279664938609127488495983300704903545114598961185208447103323816293018570880260878848841099235521, some 24257886687102913057390375286922118348727968488676784187140036801322114119608562306172525623541523246502277325471510),
  (9666516941928254242790782389287005823963718213334252605909469744908308075733053659442069478073607689160704466409722, some 18659380042630851184815433018914142450660462950476666466344434950011075859090524120345741609502764716763702036430283),
  (30054156551615522225823407950719686210075719305364896060925292067682548896238925037175096034931178807821456776755069, some 21626474440428007759277058312843834663116275449360196374192050189168828526590204394852858065918836376158491490871735),
  (38559047292725558077896525812896711057457262475764990170563090870226824434619748607620172022230550581330686465302749, some 10221486425017558044258471695597879077310334311513463580518678847032209305913681859619717324949340007087677838713976),
  (26341395163458213984707188825502896059022212819883333020484307865149599484334997458387716742410549155021003746509618, some 27685254179003756527122993257153546416565440271286080695087528667210233025070335941270564803758912773054243638873306),
  (2545408353915106123396691927375337474860357644647945338029386468668401325759048732938205602525735349066524195049709, some 1166137064685354899013141372861033216936442073265080856611229763446466675852212751187393002555866831593812001176292),
  (32486556149544108132906926589382598763196604464275936684549734972893020982856240046768260912993863757226500618727939, some 34183866214449998438029434456233384222826998629797096889273721526495912547724474761500519464611439240946441737873932),
  (4492422642381759416380337275371189785842804689051888841444650024002052413811330673274210273615924988860260791042163, some 11842512305017946522472638329541299873834432525112758765133884812948531688157214738590219204051891228480608290999635),
  (32549053846009137320453699557140350502420007583058023165096025159652844807640607332662858979435552807807022781435704, some 35146360460235861413771505992140652852643316290825856042773329200851390491423969296369389037022274476903433307622864),
  (6055723314316528536451768459422072023668989478554922907999113543925109413987573747013357946407879111995300273894843, some 21934919721175903876236576149990147406212342120460792986187673523474085842638504398856141127897064889201983412312437),
  (37538664584372985754371010400063600612752230478418224229909218475992821829930938004345337369446142667128232300677800, some 13859013324888633113005015750612344236665315743637603485815048723615093057026069950074431230977630950389720130171470),
  (9313650432181436035072948195394248707031533945091433946232728464461244903917149101196381181526163740653890107031867, some 37667707519762068186518295422467992784647247678974262998081468334438627112485966640677208004223300410878365846190071),
  (23837557481040648616883038680121527040123267583278037830903652777725806268727005596463786888388038296688147891232771, some 8108099505415572256601405512227190496623025049343695389396416704677351952748795571844315335940859649442097702550174),
  (8147377844197924861323464545378849346573730477115718243365311142882893937566624469111038901452448112588878594663265, some 35906835033772129648144964252978605399582368757610020832253617267793558886720985305667580788797930777561046738010603),
  (7386745486430301492386802593237317812556245305295213678652983196179274946832399459177595428166129135089113709483309, some 30406392292883184793937206503237221300575207482138884444737500900804871830052084098702136966275929313887480913435332),
  (1497907947994248459767038795592146365853469122823686904871037465069631995265019890017435983311553090619273104858430, some 8848043314441828169184341168708228770070326062667522538323077544459912939260725914805119503043605032278600785012289),
  (1875854649053048640849000354330204607869352294833915000226383183638126944632849760343619045602101108995766416536620, some 38577927701894770961373711356743280610102862993985913959825751682353881246415779113584198029779617888678439634581005),
  (24399334067689603197617640499396202443946203942328209173606993052979374996323927300022148492593472725554936920701074, some 10162859576980639252695049122925292147911488063694114410363520358923467371578119066096022711505864894428008022155338),
  (11473735612151348807015306621022489258511797058791575693909588065335803538985455888455733692392241994710734390113227, some 10824712238397341034831688210983021129577371759191816997667556602097709135189156737746985223018365671504693032441976),
  (38977020413845984408320783307523379421747544932641648210950656260241132844740278757284923115532699504850914507307395, some 20612373448011561830008755837956383117012521392119960990929541272233537163886551580667088438652390123259882280975964),
  (14807685525581362456477796276607435915373480497767587814827332415447226482464482005429608830716009253201638391475732, some 29179973933559065774860319843330127275005393896824719717467271264747226697085499143024657795978823409827270102662111),
  (11567435505356043207443679367196162120710309942327173632216652759092710928758193462907939623254115274191616680176022, some 27105243661426325914965186479537075245703509401244680245641205573578229756376326259149808098967740713697692751834503),
  (5955989322539694298827898445392039800419444059918072634827140701018804022304423745845230697136858411881023260708962, some 14652514247173316338607431038790604511009134057472162009831061140752983652617603690472623754484076172157346303108981),
  (36434487664989323541198393749395017457711855946212551326956274863454383435843328659091083436304103095589158783561093, some 27225361653974619205628521765604430544306652684035530161694352341934261508114740226904321783467155140935660972436488),
  (13407583279689139018495471107201234045350799474026645125535738685050695932877885664187688787747655643127505895707911, some 18976062581615643043677600814648183846667181215673922111632027115302673423299973041582974556186051022316328476755989),
  (12467604392624421822202065933481684949292657639069794360435216296134236230040977623591989550965848213085394510538862, some 14672691555219961679424647020140420275330214673279550607094089151121358666143859262128120260788774675207816223681575),
  (24191745444905783009283362521396213898675056808477305013433245864988550353483829274034180791949651098249144132932060, some 19910027164433448317296937020439205658953912218937451265376811205467011698495374067068277202917530075334034453898455),
  (882355922645002466812579355973280401535160928248919025017847614968852403030572293357963110381899167350392715919925, some 17519016580791079301940370964328968028989583069348325443288280734902131141479880443390178338484466308723331287404950),
  (6012403851029726772931125963441884409322415604516312049821364181106450486755298958177646093239051331293062528612358, some 8318267564823504155702234344344199517024217566446045472601516586802641498979126195421436080273205745264972603391598),
  (35267868577404404817365890261722515232257598213968880485618948572804831882115634344453527489964989171423692023737013, some 19830600792620264267514512102499545295311766601878716168845692225961964660548341925896639440451300723996656273570961),
  (38606628738048466615921089090290019984890857212579454408414132644432126410190766471277237899600447659347844003036245, some 15014509959086013247293181890770595423232210278328565128765458153788106928510180625073360845571130513954578897505218),
  (1598431539863146417931150589919819656530388361046206792574072381355247430684816413507131753064435076198910352335500, some 9409236113171266854649738637609966602045455051883427093064356326757866430222570092035815040498205483731937773150875),
  (14216826613285989266747629650004436278577222083643485152487237463557240176143600969814805431437824337063670563060577, some 12997659014599790477799690199421985280670639930459236741359802664976051731660610060558314103820758525413359286345009),
  (18235640428373418581871559114576608686861379073501586255522466373769951586663116223659146310117500615611129563788749, some 28137367717626852435693955901803139527292399017575879564572520373466916414759242251123740620521917515223619273481295),
  (18786268164276167555949435784041460427483779802000726707170771559383083190808845558649481563421422537030457317410909, some 26266460719480158858580436321387638143079450822725857910458623375877290881595493401220154624267051123739919778798735),
  (37063790262947708836697989560557040027726093651985330168722193192265467956826799151835730533915134170022757140046364, some 29879723495889135343046491445810974215937334741660833294439114441401152700467860213150520400092555909211479469286819),
  (22174816607723972352799584708814490985969623094336547485628415090561054892754442191210254893983069208340297854194779, some 13845865430644501169835409106050761335524922102529483565123077000360911781879648423332247142713950527019073466715940),
  (28107739210691420202230757859842159255526147976818649095459007673813501118705165113308911823693871870442078421523488, some 1401632736827768408490405474889674569546129509166717606712880745009611779102859364601544176241005731175258126583043),
  (34192764313461678411419254304377338471970545927246268437799051673158291165738420754914377502945769681511139959724435, some 28122587877817481537755844487256526326975940582673432872418154011538421849088864888294959072195332985161395874989667),
  (38565131766478364499383268791860317974969894089210276889268092382787624514831199537861667292374004572849466837852613, some 36872967592608397698336115421586620993856041544757000469447329194985932359315644766284170150640420372755611029774037),
  (2737727800279594920523063422816237307810320999416561746276547709358748106207933551269710536755622451275072140152537, some 34875523898821530519142509072347978885149348715923609825467008071200952540361601327604360697861333302902431567332953),
  (34218778163046251682875252928327072356658501955599159906098066911554056130320709437024080752723977828248499551095433, some 2492946608880891219267214661045419807705010148942066828237335004225995862808822265442398170345172364837977632341467),
  (7689063258415942934096065978134451341804072073398816840861521534872850233570427109021909995169060016552384528836818, some 21185153700351209498327326436332175137555271829209685275648269654611689031266166444574985663120726399349008317127816),
  (11243576044116662832067826149285678088762960926386360439944567624197873219302294402866877988390887358208182113060547, some 386287314997517846890508407616028180269676821954278019258531258481021584575411537903942406566016767946446367087373),
  (4027380801987592010400052572586890870566270751885053991834658432708320994748542640534729161222425038757390144104971, some 20999272383683092423932996945046618931941169262049218923509574436979198901889611313227489439286243732398962112494803),
  (27064805867420615059256536475074238175449721484335783816380268775531549277708213695357903235249014528183700512720792, some 34869668568180240328898001210635041738894348545248322503656939895913648314256307241424689631092213606151251518380525),
  (29262943614730816584989743797830341568869693155751397743667739204492550855678699733553434341820154641338165250171705, some 22273183298628938062168781566390988040593778649543757336506747659112920997518897341640107787891473176097369701687972),
  (6228975179624208421872734282352834096051054793057887404748252147022956498598048377764672549896024300038646143731067, some 7153999695041514440256131514896097730130356305417331848940992424859563629449258768930207634433788971439461214474742),
  (16386670119563113862251785611747328999030508130315532383967648023911749132899588203109049471435141942176053770810380, some 34132933164550201620504100276662114105955586573038683160684563160789991475601046135776397352473455319527354497940259),
  (28055435420469627695433785826366962587928378091844792002972784897803586077073951695192336654625193818638934970594295, some 30192751997232211441296017683672755357128955886908723275892835804849414754818187833985266609564271460569322219137606),
  (14630917517128761531994279817944644865051043749506699937171157164605580783281745038829362834595434898660158055635074, some 5584978369418093486734938278239110520070219404650602184268324373438001691066982894854526815287998684392812586333907),
  (8589451848920937346387003560836157173913060119973648900038817901992911233623485628962002391886910229005591940955343, some 32299052252318209257712266461695726411080830680315752471567375306006008743765181697417229688091382668133952201502057),
  (33126993352052750593744614517273247467098097095001389331790935753541760605840693256582090563112069944806068118235322, some 7751483221138894389323959076220800237623425971319637659126419289631910277958414066738590826545475688901125430554735),
  (16072765452519413445804315417960102336631949451112679836618116756192048875911656092578383863720414636193385517407660, some 25968922489634721581858347368871892283521410199428999967747916750967863264768028360904872881778994282177640111029007),
  (19705766116228446829333624257848533062879390630443978852390396751985385247366950821146216862528098136665100598897822, some 22642171354211828112805436307288963906569771425215290472015909678639133196789509814744240156331379970964518129802346),
  (26504006605773279571625651120555987287522269862025256087886499894031195577265112882038373011824118136091555890791819, some 27970109887204738145251569298360891199442561525281927897563893822153019606035191122242207670593384553114597651022541),
  (3283095791112526492278214088945510557123779990861099423655571330659240504847783942067460581906590267785179673918329, some 16627928310325883273056397153258448957410702320310232962822119579585835080234608022254227184363456663959409909145448),
  (710085994575841460665240849642072683573103646510248351721035263136580979164492227018403043810034294150060206111366, some 20770651991772584026460174357486192072991699229779058063596675778231693067125266638592501219189903089812629014335923),
  (35781226442768426255295961383519540589375957769800934038108724594759919631005508822117025505299866547213470941996642, some 34309094258233561477786145006256575449038266063653364768287586190283740791300461221239773019562928865208420936410656),
  (2739439590999829323506044156536533603595726389232620994917131456873518825282560536974824294577924330779213759982990, some 15222014609178105507040203716170519431706303578866244884146000445859310495819399735029408143193254600995931497089096),
  (38137549209831814431052367367458135877270579877083954332855583198365077975155533303173737050826402415478893066579112, some 4820349350051470383986245676207328542175742620292243624827644588938724213235882237848466458281710762893927973880),
  (20329116888241413326932891535400460863221309209011618316972318138417736259077490034439932974521452230223924506724419, some 25381080707355364249989139370340980350374465292130868519965534075895977784710092774221732751639892843916064074382811),
  (18292351552392015370523315808154660969196303481265185186832770661561224186763275083154861449926409808122357473612987, some 21718313349358972960646863587909278892062810242792083257048818384301316658548712480793292257305691035316501197477357),
  (25886557147932665454241809620130859524129944399552784653854214273670125403310044303956892627225624520262731197682036, some 660853167919113479117339971562660738274262628646894233901773275361787882023217617505795229287746930110529368304022),
  (17554281284897829651543332253360938338895591367264239991421492025587591671571558991364458584563347629989858232667064, some 31480467946111711778859790886080431032379527858002037111339741544505237190164234187255976573044149998361819648340877),
  (16920632722617881695662442542835939082276110931175119954808719639929239148759334930250419919263924788208518720592569, some 17509539925499161331055387303718307543001762822105488269557430751544741917916409626619385157980227825783371265188653),
  (32718726444167438050542086294321742216880123004256821994410828811059017196599501977426680398315145905125652913138417, some 11037177131226253238896735255275480722335367684355888279210215603797887415828961967840401460201870699287597931625554),
  (10203561689880481522906359864849826881399318373801485585880353422083830596827389273813310252610517042470684957958761, some 33226866587134932658503944731141897254667185296287722388334622112935155099032025479782456221778445730319208216631051),
  (28993387002914700703793310799686145741724852486475132491809086610564455497527889319422749714933919872415992238128010, some 26683111526103689418082318239427576660179964765282535092306312610359785133132240459681263582962267518759421094195399),
  (38087266357338264858690421939216352894122727103656295830222935448378153866634681739779335661731065511896050030818765, some 24874279503064403534549636481680937804635777389176983960780444780849206740466160796583865760486995688604941472923677),
  (20467213401262568386960347224935655245322796951155233673536924614521886746945264006449751526675894026844359791865660, some 26980173312717099292808196920717317632078379511225409410659052559270752731615882151129827116564710680641224727338616),
  (6951716972871304837676028812641819372101652681730267241754298047645357349885440735792704324339128457327001703594104, some 28013927257181457760370600408151789337349414938215023151377034922379403345194028945721165506405229853695669085748054),
  (7102589321809157019643517234989780299937155440146425989140959943513778861235888002895548028942725758900865017407220, some 29771942635878015062948989798842672360089835933031531748606625485573638306587217853114427014134307756577014572452226),
  (5781371707076355934465922153163489583909509367431820530653416600779499467283444921581947086678016181787633048037110, some 12262955953767697849486207961021346008469344370703082763485064588153560580214207128821539241344214887978794199154157),
  (6388665588568725917054631936853073497107604790715418775930137638145168266594646331676211018028423401027772642889886, some 3320860429144046334492937574146103488330539865226164145989930703927702512191902247320195304432056765675478573793568),
  (11164132379445962188055570389902757759793636200588288808087797954016901084734069806406078564648958910579799248917851, some 34854391629071266710835896179321853866132034679237370362497099674529982534913970518596317586172508682827202256359059),
  (34562016327361421537431121677744228162066580330384912212203647489541472831420772572932210660694098432330547441618458, some 18244914715574070400424517664600101793629153529908496286831770539770769872963275063143879554990841931364266528547047),
  (37700573208272895199180744623326741542848751741933923693915080024533464620347391526585272997415297569915362273178873, some 36621796184646016984957183763088741355173860426933631875343907858722236584373710192811945077478086463533226278257513),
  (19186605660867130921684477623610961461020126951704868334693809866857160248617788611366502451201043738701039282012740, some 5053304419782398719332816008096449164700248006501170741194028135320024988159865562920246521721111543924469996065750),
  (29186129093946439921001432044499438601706465056650440664333051394823692772896891870921704107094707549280725646649430, some 5239003406883179829305877106263931022237287733170840927944515465242700848467979321508388502872757154186947416126623),
  (352252903210046610540254201992361044803119033276465504837170340486724569340856223959045267345595548652363296537665, some 2395939855916833156496706202748430759191934559335392950313367467125940074560539522628227030496048098099533595479147),
  (36306016344359829984469414841705238696297023396943390031103432803319507339468231660489728480869239447440608094643728, some 2146763833088988076368929600591678023084684409994739477318377328940983854861276356414948708196321245858512022236546),
  (11227808184255546269990587778987621453288770214183777727706972661008907004941974609595784529240660703205319593708778, some 14848398695570613007533076679763327128500129050058461336948785082574808763488130865484143327661803082372889522846629),
  (20260372824781170832762703255714122870307179674362387479439089676643712004259001533821998425165058322207975863318030, some 5519013782155012072992487073193751098182476037838747270515719535762527447583226350233683959360992440457604894029928),
  (9508531386321222251255285179986140884171569466419922312277640850602600935434136823995014618181706619918407142964239, some 29648314941401792785380235117904191956144668427996652553812597448536803461643564374458311493037557177014889880864835),
  (6261372020585981893037947076160117409934419210102821823963850680374037084419596043535486787526465909839622290778750, some 33438217048976846768346651126287297476417028209168133377026469464977012756777353765550639428363055949744033651612087),
  (13456571323587713826749992450145174433416537273693309504293231666428900843915479345079312330884390646741875018867513, some 416415035200596803480868922773223796465610908254647785952170863524744029475945794627978659947643166142989382144310),
  (11962386441315593913664089687471434209020044671143784223691823750447552758873677118472003059275810429582882867276579, some 4931181503122011364634265805508065980210702295405704010151738540687614157941005751770648515629567206291912058083075),
  (9135633212229823451936808013578988533923569844455686266569325254398418600561825010110416730667378997068730751297252, some 22595441547218782569155623566765114321886276098336856233461620727921037226511272125092955774497541325420797312653627),
  (14413446938389889537800126578023829703365193585701386119149707990225652796830002021791763584001898586315496614344949, some 13671600681473129991559259427920364425484054690477196903952748624574947924586172014381178417020087573891424884335681),
  (12004700635423750523858059339757882844241006481514907624551287668873092023359170624360854418172830247263206452014541, some 7976754461691254169147128893294917347959038065586664366124661314862901674511435975027136943114939826297011622422988),
  (28160025420133842827876508636751555985167644538061674001727495458823490689059545536277284036798508222836254433204576, some 7252287944348054110965865021175061961159604908272407547955940065118158300494323309563844300288297723152192037463388),
  (18810041410899006073812311034469934496326089401129189400484888974252089803047498484015815487973562609231665680756474, some 30324112772352104604166101784935834234264159382426686676225053743139571596177058640349560639494552916573910968000340),
  (21973659082356232602797677389763590324626846661226992963192022278579549198960135404157240600486143868214067978947919, some 19044685231711618468540919215809387441870565271154927814556978083055393046366608734918141224701355597698224856450416),
  (13157109369140172220216308984905235772930845224193158221300125976375256098045041697054691445169950864362962093782905, some 26556934337828191492993008383083367406641839200635730823730830782092400043864846122832589162288312932746293508307211),
  (29219271679875684211688974620570507275601132485702160138263543127279495873369165220808853185884183298541017624400316, some 4927397880940999381393735317204806506551736311423392997239109649421812186821498241551374980032659968147903879472151),
  (5001546655365999491088392507181375072515012072684236704376651761816541491878719989005429861767416367471408681138930, some 13937134859622453865212453656679260737597261187267044700314672685627436068934532554325930521018669317551502430344578),
  (35327142743737870121171855775628736669035853669003235552598591705460754258465718885164417322264997539167879411509411, some 5537607583202895475839399499732415081371014923206277964155427129821994579113720389885101507289271148289920984439086),
  (27310527291625120836047636814471661787952547962893569071666789401145426279903119445938825395098044837988955808736267, some 3773980591000030068763392463992591368087400141818914082578482759577199930720824761558682429093894743113328823514744),
  (9813316135667437129464191691013473808178514362332399022271380880802632153635980203847145905715281092055982261693845, some 28011333583804473515624202617321173641056977062616484608695270855172224059567791395298900805306093534146864042929086),
  (30087016754424011939178891024150754463759653521415422385333263891549933388620512287667604688243912668380240521363846, some 4031823721931657989756486067822076645476310370669535878504225724612465518422799151251811808720620447874894261809105),
  (20824816760701867577811802749588236959644600064595028370429907468775731631371332623327432606116721640913809871527499, none),
  (15487283043645889307005867749654272357046709919354596661648318606536896936178407875380925400158180107843408483616196, none),
  (20383633290015431617626193848348149895643228992335395310274615673219863973766188625073436929642994045494012684703454, none),
  (16362757246511482912561741387154369867620503899046834064347176202094608929443650645277482826376942370494527284866653, some 26359828272771585177683241260030940749343982191169073388771716793554419616134435325032176073203218203433527160806736),
  (14953175269038360961538416256825979499192508801374184510534845172146571402485924604065409103718961203338581976706230, some 30705836043604437498051134719693522868424937330626654234138817033702716128836001053164427136923041100719566377429395),
  (21599533396181653252703437991874814125451173703924994712501505414940493443537041483060038444678947611395573970834797, some 4773304233544583391720203120757903799870498894904309549360697216870703494017980023080075111854319599165348338827096),
  (38837927529810849413229874101746192272984435430481602165860227800854856685344274100639014549632402226196419394440242, none),
  (13922704349797920319560294189395978400846973987496496727635220502556132777750790416817984500232776999123379895805579, some 31279492367215931812097611420094815279963668133229454554246858170437473930671574295676501429863602289502362280140953),
  (35665392584628012719582343519311405448184281087805473533461312023594608149977744011528705787531479803589273340470530, some 493534803959551731702025692914419230730205384471569222859461158181597234043956454351047037512579528447148949614670),
  (28248442678541025780689987920206864279046317524312929533147103992339264353801052166679440537541061606893842450450247, none),
  (32600749895135539646918345213015084905732015264082209844555081463731381316173447625896868426612063005758248339856338, none),
  (12165531293849598171496302820668090622047496837284749631101309323414961538824897205698979556921548440766658809419316, none),
  (33363711816756182280024577516500878601334859113157054259258797462535386808368303605726285348119392329649883640127688, some 26967099522710086689691012277246122388467372993695792120328354281629823201406069396121935023452232865916635216402007),
  (21637337599426980889595709433111721010514992249403181880820650479454507534981652776842971875091858947263165191771389, some 6713518744222826052669009201038314844345328987145868137447303972417466496667424630675847917529178193387799173583996),
  (31064232108045261242033517393752696858441220177746037386322031373361762250219909474023397139527588026195814200839543, none),
  (9689724087868656340510607908040161039580879854231446917158832858708806182534332563842835790376329878383619731344259, some 25180499784309489315516836756121575126743260240648395844708012579980415359335327693196681464826629349365083849102197),
  (30596889647039179536785431787122012554775179230740703747513009963431138099925316875195282721814354151751761932279383, none),
  (10806585408376051668283273683729574552618997689437154628821691146373033865329129258857404691667584600823967266251412, none),
  (9110132167582358777921799691298545484331243533048778092730038096709770501799912691159912630471510905314991764748635, some 1500926612974236256547635194814109676255009865577413601468673426926797714174497742562798235859917190694700756524987),
  (19282853442799127343453089818278825603349197451998566050006895456842070113000521186255738945181785362308971584701258, some 3330971215800515926037755754819405248280228848058426354630775886447614562798867930608684891303777752801415279969113),
  (20506471383062215590265753374272337573988881197197223310785680826227394945516874334781364281138134285055315901924732, none),
  (8922480188024102329429790486225675807456046217774080630006558332595190049554925086923957397648504795884647525138432, some 5312229615917728203839225945614734052612666208885121245681222124570335103132953807237835140745001190774053364412447),
  (35919996792611816752642831413447722388491316190268208873586695805652229997377528716336464677454375919993863594936525, some 414523738720398159007658377467676203121531153267221694977645317715605729119941425202248936801772532088351982139230),
  (4419020426562500698342603035856617049329989779024679105415581587118870303920439367905786113842790446112945510564968, none),
  (25307755743276024043825080132183576207805417281553261983604031553972478406852600899874426876259424322839827239613560, none),
  (13227335999381354810172205753883383235476507932969762024671426588881875354041504195735087492899756969232160204452073, none),
  (12524036363412000333627032057134662252450704842193410820736392876975941195043257317941330256504385290009377317663545, none),
  (33622537637069566368703328989470889626649118960029623116725801244603974085888205266353206579002382839702187350471884, none),
  (35574726745844792478455546180976230197417522305623703282345457715049024530071562597929336458344193736765894695497062, none),
  (10888281577190410554580537017839846293329180308398632197077521534742069979758871018074576667412277495502046433055955, some 13621827254992915997015383391693029076220670496874094954412557001905060693925845461207477494700927200521362476007348),
  (16322528651712436648582249703148036123972519142599931423105545189723874304969475052580048526593792631906325275836520, some 7546472578645101871168013403929509973624082579803264858119457695038255181049214772883285340244407270716584161966599),
  (11149804954073346043908219205826866913819019912295184904695368951365385078229612359954184430683292169569070268947353, some 6682593599567574881170514275853022930278156077054529733382924914437010764278444390726250376199732086551910550380631),
  (39173402578536694387452515387865703179383158445005950981080081770960796263827388663280206376757021175334959458186287, some 6586739092476399772579426452262441551367821011853665437690978870319886757778016244363177396380209619139183986009042),
  (21948649246655082401735407848853043881202929517685093427988471635879746524296776762226440011206563583441923628650976, some 3384545846126947376471629162464258890247835627169772790756540127223184376883903687484787317175095870422487162476128),
  (27768945050820195879249960156580785079120432131257081686879773367215537405863278581582990484882990246446759185283787, none),
  (2419377913510088317009796781119387353992028955050811103152367075263607522735766377572170215106389455175850145563379, some 13079991082421576028842072016030084092331364831263362869698812441760565612398161973200964523882509555365449117093780),
  (467658588473557870874722070819037576226983770947415038867078398199272546646878939997619132722342671748386446626339, none),
  (23752425442658733714456417344328068428343620113097473835557846072602088757849783226954066620491227721812187928280463, none),
  (25402416111950084941835950717247112754905806236379247741966760303248429553559354678403087312478782389198187901319146, none),
  (7888439343182769347505061396157790540965602333151811705947430108890569119615027454646387094879583650171476746908255, none),
  (38329629984196285127617487649001219293718908780616381614837477808824081008277845640684429468446819583812089991484406, some 6101114860111898053412893731454107751433416255966047530655551407793499441600748204036060396796585380724942471509186),
  (12184561188643400329220134248871983008284978784859349922821502439621629768181419386136231003988536002294821981610943, some 30196937379695627413595649941543649562637057544782754173071246970904611010588169578248346345343151423946904114928966),
  (23889778115684195606935682221347023273741081227252411744562209686532025411777947428682783612011981675927901950368729, none),
  (26792756291879157639719691946191342869893903314183859786481378727000190714428701789427208737345575400219849530615938, some 4005541117164701249925629375630988235773891706791485278965015114640356428647745561873307029042251807262358044856205),
  (1186209265670502157902950812808754490682219521208154108896633588216157421561832551811774169779369159984418604884426, some 39351177736416450737561786917534601121403371930962870598255038550377064175057850265730885893073161326986768666335862),
  (36816055518515269271919688869698550942297708295539950820508100781020048167167848019019387671720713124855121685591270, some 3711017304303760908372000052875414383843088500059017016842549825304509056784352567860456530771976717847886724480789),
  (11568567303060956818516524282998555640761456173979517337452800119717727496136711724875981049287657597879823167722105, none),
  (37468628074452446923688476201054224279715553368522994481762562636255797694102724326792111733044644323182928747217521, none),
  (26180194674497750346327228966580530312689359751507950113924805351523431936654742582743226945262027224039771993949482, some 37413996808057319440865983887836929988739626981515147860827049144545606763167768009099912813797875262200834502844669),
  (27505356516465518284235247822219174729665940026750045172781059730996551439389618332562753135940051173501167738399494, none),
  (38580710511120971029851636884287283450245727112265445790211868530882431339356379488388617737030637366527796257423492, some 32650722181253223841389808673816555124680024490988498753300820304957467609867325884908519777906606523029501053930676),
  (2135241632963067474000457856923624846934956996599699038463417306920859075344345705719911444269006464246644238631401, some 29731896813404979696170312748891294907153843505293223784418061276138450654477656465580640316888489183299598132188068),
  (29734305520890194709189832187303716464458188910111813500728007980181334188567356437935810174292445913304532088263708, none),
  (36147000987587244113180867859428721183095854654735938572397618068901706852600771931432437685836481443427653904937392, some 11871588525705854396006322067103747945046818219795352498203496042516765337864738906026365685640051199344122286309540),
  (27265863445085245460970932176824631253906244199386988775487340383533347679466396101655763366620378575547816323609380, some 9116313931470108920738398894321998071910239507775312854560194180468202643753531348854313068908183934332709837843817),
  (7436761213642257902675527138306611555336731735379125859781280004232109337695790585704417573635760169970818667704505, some 15613065445445279744339456132273651044917065024917840018222322053346690550632273633193277256727229589926150487303790),
  (11607894522470172037944881836347585029486834496435085825402951579199501054078256513614115572030396661569923151460305, none),
  (26567031856958635838714138108936787527339093583919349170983435463135715441459820201769876725862196593733884549592428, some 28314693066662540221658142328264710808814419922287285902364114374151295692202696915807150379900947184878170706087145),
  (4068830832128386207621406306729680443866486874475551869722813053656054852157068110491347713339488062340772179614810, some 3413311597518135487620837672391142368236780268151918005026135493355361680296602593566499632620527694084073270285689),
  (18025205494167900689956716394422508802212961946270024915781689088311034972735262800207368870806179702580142402217142, some 36676720206015636139676551481035233316478200037640190185133780644973907743620262762762619008967385137263589795330258),
  (33717071364172451301524712259379621077156932197939367146526608470899135595232075240057440826889673265589358074137592, some 889303462494760998299124409665675784327317181072116917713546482810546206735056802536877910158406967897443482499176),
  (14592437950895075687898387193476746644525054224832044701708634293420526889833915509126346278442149647329024907702317, some 5268791794557012600558347828459851219891010315305491281526694949989670033600162469242062636464635766546875483119370),
  (24967288983811844100329138790382500060932864899604723449479746072765090515347982772494208731953217362166800350829052, none),
  (23051190973691188776367806672790816358426845443683619191400963501417238800697031969307296950517140812468602804480497, some 4001111170278100779743523073065701562071060507169733621168653229810270957196651390841273439691038601081328721388286),
  (21250797106636148994518015447791263090294813672722451774943991212096531610959331002886493321090398596716951525940176, none),
  (5695355699574428189362861431227686012622246199749125155055271507980468269225250063244001316267926876603294673847571, some 39377464432502783607993534413041921526123897352198993520454815288743812048859348524983303949679467067698178313746311),
  (3816745406164876852249795509168509731276159599135241414125944847546996574173128055888991622131209498788431726970214, some 34156780872909767340117906761392466848973029863583729638898008811082464173649701894792011478745094168722933794812929),
  (10977861456467401159929693008070985413704228835763696339391642803905645812497607513207829827128347184158932944561328, none),
  (11333390313868591082805190475206186058442020316968354239990358735013338374285618793298878975219409270727760334329322, none),
  (32725226340446746035247661760060303664443954724046902033757639180695230324897526383290452965527786865053315316231283, none),
  (20134276430983438022520161717098337379710874772619038296454198988140497064988585393080295521244947219803012780773948, none),
  (32001880955603342599012177219349524726522966301484588578545183076306539608663587689101862705455924018803177948263039, none),
  (21905229466767655705720474216284998421966728886352175945655254553510418158246203653799585566573380544889332532728749, none),
  (19103710708574310954925391583064773132312768099257356760545818610165733812658474942714353973943182613931443249684812, some 31771928921719861705763204326953405469308410234819061642432473225767720843699512842098388100515901331323312086871479),
  (31571463543532695272174180670354298028958660628682890795221810902718924239002854091007689676548405938221633277909669, some 27804774869184084911264070907259284847296389010689309935577413878135283449266693743005391975827632962942425930237027),
  (4503858614339754908968065649478233578128285036481261446844727191961871059945417907084396657977917089792805313316732, none),
  (37962948344384858258029905388217334691379667494967908111645548051832544514875947668230053915701094499298970409231463, some 15712083653369786760111434044384842329416964680317477205761726869763012280697457154128677611830000428799594823765683),
  (30856588790878580715677137058608763766518967290070667101904470721550596258030726550218520088224764377167814910195322, none),
  (24086425455060313062413215996613389629616403859335562971649149227782040096505865570184471548727506197638275325497936, none),
  (29797330971016007988902279444690426960894274184678423577993238155650078341958646482940002903926270514714053050554324, none),
  (5952207068062350544916880025211890581871749985979541906244334813554745308748026173121334175502327755836033606139806, none),
  (6013950088616230732119470325006318990267022461696194005106550373488854161182111860333023646566955505556389202025282, none),
  (9452052100843833858246405155356520557527302554893810253987828354930866466923863119908490278197754548713025615509430, some 19215531412959323749427616679982815529168262450113942464272457427191296994867314608575514141702512339910669162641204),
  (29243460160212202495005343465916372352401571637544896154424429146426916242338452722766973443013085314240652947915465, some 12371766099958681931021305675656453171315102291301179630570846994383333271511682282915627107476115725542647424478651),
  (30814223651268108517488432984776225862008494591644490274326301000064769290573415946219048230481030930556705421191464, none),
  (12928935622247127936054876335427433780190537179025785066789264298116389477471995163578767733575912347471661878948876, some 22403758506089431197267777242514916892002824941572100518950467132331273044909585189462105454863106937784757298382273),
  (29738979954611992681014970351952530902060524399575851592955048751800017463670444018924715554511607871022973241114809, some 8051389551375872533999572922080834220038265378274700337880763875373578535477765564752057985387887579577980953613334),
  (32157519693400033476293751304909294330786461794216244515191395675100701843930712597496409513901477539336323679457558, none),
  (10569661052412754622629366676576204921025400440060867146509511879914808653960934953253524120233527106361707348624311, some 37005584747764502945537813541843508799123796093237385477092609606549258850594239239878487479113185110214891308851500),
  (5237861624515606054084403724395995119921912584297687294183487440644880517795827337560537673191357604484577741010324, some 15168892758275770590064126548302402521684254233178880925097821925474482293398510947759072758609298559336656405576159),
  (10422820332769819713156998423983884649999208531228005233287794559190875758064791286230038830547452092640938048288298, none),
  (8478875945135956696834506425417169904538970581777991720907557625990586213891656769434195493358310449212997751242610, none),
  (18462151585510827660946904930633098545934959633728278118922694899751388359014959747519516758528123624893059477303802, some 37106574181360087173207443067872989182742468442346907260361076848079067555342795185288382445262492758182921889220939),
  (4586740899732897932926380798934437656699930719007409428805197589490460369446866588890404409345374064758148038829823, none),
  (20015910628957395600567386783841911438294721603057724921794224086430552917702254489029073670897833188014088657164176, none),
  (14241877704040748708484033270141404104783125375813747466318562829228721649616709002063150852176413892577434969526012, some 11414527607753731034096170549671670650325724391314978717647651684891825117789898117771085063406150738770840877472042),
  (24319467570097283398786812609007452181627047204113041870584018332543672137638167173313592353191398818794465828460, none),
  (27297794218575072922660711585641269333035989563723954641093678324908914852851579724750472024504746669028956770536599, none),
  (21449217744165961332823375816598868073505434111860641905818280556786970926012474048195371387854961912351943573600255, some 4880560402323763000733650936863354887382614369103327212047028876297212823650564221920559842804393243991136256492773),
  (4854159217334801276109327236023575145008287875367767838734342123159222998246247898896040946144648033545162184422381, none),
  (33581376671608826675187922506659568878300909418336294506082276606648015095013615640777541001655065598655342164011037, none),
  (20030661433487817742776782400213146399516322739268642384581178307970906526002667670245632036020904744879233332209897, none),
  (31646174541429462205982534317471443816213500401117125647737435087024583445737536950595866242812765824043887711867814, some 16452349616338065602606729768852255297456211842731333373908625534654074979052353026407198095212754588902712078932237),
  (13547982741396334354200236320807543699442139600114270761816608006947376897467442459237802503414807465532324348700430, none),
  (17979795122879737320460218503419461773601395577827560386027867228154360774108678170027919383825340966693209526568568, some 22113737979347492443211920884951055859140106622947167552999177341474889927192896885443074694794099261144448162425652),
  (7055387823593335737270115382786942740581885940932615962528375888611995432109787297990478377854186748228075819861392, some 39053652224367425129713349436743098989138174344721340941576341359173527527024888705971785519157838652269018991936408),
  (7289043748050135044291581891857003741716775772168276314826427235473307648537785285511917246921678663718638754405889, none),
  (23943516229960707115124020439744232445084588409423266106072824927914711631538595687628094433130885064324529589849644, none),
  (29491105179123322964081778707066134206043961532135428577038145639885203344598973146551524819634830595902341314753404, none),
  (35299120487256747426377649033918664285109707220289960776961369861045709285663238157788122504716812505173452823771810, none),
  (3585878656545979414532734035562023408964752357959209012753675844783257271931122089548014793087290446603715674861212, some 23414100814856659970516175448627689943656509132209528081612441935490462495790872133014721068541869506217271076512214),
  (29534917739868117321879200312450027309657818538611553158761501212068279608150394844328313932037677016935760438496854, none),
  (7898100063053831842878315771491567487838095526246552817670230725288621051920038352673566079075817363047694646924929, some 32322728907491462725222754933076560200374271459326136013874273967094011933538306801043770817010647628986933398485185),
  (4470229331619492764930639952887308217656423979312832680925801234164270234270960832633935670874186343287860537998651, none),
  (21950051963230604643561183900730493214663594836168928232939066987538061570385766552475020874362952644649514618634185, none),
  (31124406634304884793251322634701893590149483709373482398696324420444659123280552817651505705953962995553486002110371, some 8950925088369364522702595327411585976280750623902337915866898534276359271279092983795825362937664754948551396917997),
  (27390787009920290515511466139573134064306332713737442179216779226474064429347204286119622457105449070720240688388728, some 36033682291606095326895054764405426226547840814350144292360577910385901781162507482984884150642770697490254687785201),
  (15854583058446918726602074990538443406860724522775061851299685323888945738575207619270023004370041843131396272262118, some 26505364100674426747227301821606202203055976641685887671802928601477903734088036499045986681945162597702063108633697),
  (17143310318380439569639368078449382958314769767546279258524600548452587685609838011537825475071106614082109140122941, none),
  (32891491937057852401283723119073972387291823182363959888104541853501854159325157181555223124886764911904153061421, some 28161786670476105585563558113114739237988704388491215002372887838252156978138903325884996241340784086264500502083812),
  (16687132222116773179556009114186241624697654721008807700964700940194453019274831001417978461460136414232873499541137, some 9087468651552622779106211533112676190902416959337441880553068426943734723786590293853849898185566806046360429505755),
  (33179467796507627269519686311763536615484613659774698676340093528676934426220274611858271167552213649017413091040767, some 33577521986809729259517312701819233130517019833521873329423729745764239754414890143016070081617887200969818692699905),
  (22290160350165253416607491614875787551886268053093402903361189257180694091515630563239420884431783730147182172246173, some 35978289049361091252699129633235092157345213591264886202260677295902294337610328004594434383835052708655616305375488),
  (30989542622583473321076653108123482272032905238021580981690339470955755120600096453089799072805916990696077488596784, none),
  (9650596664901451838897454748737800973379990326342477015045036703285310221925981954620534914657327890364491475415411, some 27578542319964690810767220608212801248003231690510403990843289815661061089994876336410401045056111171872042189958975),
  (26242803903507418415088806854601832720188760479054295703824842232885557220596986903792619896418920192549539361340050, none),
  (17661507887167600139864285931858269360118813343987026512312831213286430756232037065436450699302687881425899261942276, some 17442976473531396089290832600577310696453419850690469616957351467255325223035498092760686319319518823331796130956610),
  (16021903930680493830772281391088718495657587133863804718452877113190818789085056856953759906499266797176669239636308, some 26020887630936968041893997380213839440679060563151809899173933778958393501969848511452671080577720329246304684867939),
  (22102640602375428415063869266879261207431366685526445408364989223842763211173742985048552618346860447035895746699400, some 30855305387604092519334913965628456133839601266525981451080049249786962377236598639586347714058177588261889128653120),
  (3347330303617898913566116706136710773245373509509822570164236678390490350380739842256936781459792161117802146339431, none),
  (37331942612933166776683713831542541605948157546988059685516279065304775930679474557181203087329662237935806284123664, some 24606429720920967041247951754022368987377586642355980034297304636474944194294919414333573530931796810093631497967913),
  (25509964658695310958020749462814642252423182403296515457451943764430081287419330348509409845153990817592056592065839, some 23182968533035164609325223327989299716096117984090126204345616047612056243484316478574912554609798201150048634025932),
  (29765667553536947748806038316162778149966917874563313559944325522380207993893747475266114268868098009002675882156026, none),
  (16110822232050827079062253705495992997213017567912711212278359501871905090300486597729661952177077378852156835798149, none),
  (5468035873592107479820494026423858239264066027702856216750045155603420934595244135059341040728526171198205131741551, some 6109883060734280172359080204807716170695861655757979390430853931353567498424491260544632871950793554545667869583978),
  (19851238923477932275341445417105695655056358782623981354493492108621912079276168132626868849353472689741425898537642, some 2248695111044328086257573469109194415295254263306773332355540645527041845360678840749354820254187945031813617850330),
  (15218354025979806198834912246452889417272042207556741341904420700454936217673051407214118731996413578238782396577013, some 18766303762030514585542524750796542616477855886761743122884696477188110960414171708426192568781072599586772153352186),
  (25748116069043725674434871103164727709143553920099392611728597513271711156567209462939563127006107923901858930178531, none),
  (12700533277678697382581327724655481238836954622186579932111747817360105409977555557251492383542078609816976854466544, some 24881285395201082522150134201390092039504251927161858449581234635145855819090325944710806391664688487246961677401521),
  (12635444017647751857124462718484995153640575169524551289101331319463380118805494425124128790891577671628287111406887, some 27812895445337533983204843854966118569496106427947379541237965716815891852256063992734131677485118273948391016736348),
  (15673999877253030004181654021551333953095679583122422644943812045150561603357665653451185932514879250720211609357659, none),
  (18033400173253945451898728751679162723013761279713250723236382337342515571344825083975848842461700027299322120546356, none),
  (8493383696190491195865866282415916841535718570631944438766587809651381099396275977780831645906377457418218848788655, none),
  (14062416189102494357162112151111395843787972218420275436776068966728790053710339848637297629752807587618118610270550, none),
  (29307887563005095846789178365903532522373066871334753659059829863236981147992903519840898447402114777361294414149392, none),
  (20878937190458450097246021917055938842723883736829584003575978142154050025793967291096999414231218829482579441046370, some 4412810228621926165105639845683720988762761193879197164129542729612012809292193193696117185429914740535877856448672),
  (3230669621718429557860904456307738158501949940836712235446945473976083153310150169648291349741294314487124895874125, some 24705775269924774300811436081472711855654377946279036568184944667949694812447783018354580498046783596716139715517575),
  (11206153837053066601943801672594279598481617535176771935132251993140594803650110549757807791634290278996207308585210, none),
  (21624683787531534830658309404475002002830611604912159609485780232573845139172556354463362906945246832411668130233912, none),
  (5478656940801019172256347365592848244028734249620729289777744917854156853565224466968380004931486004726349500300369, some 7837387419365188685266436522497412266068756585928640077052980318761565522830774452413917584129771833477783528726191),
  (23828323546777334012485370723530057471145020917868557211071268780513201564555445419778235860080093670786308634753522, none),
  (9131947155832476876533026939600456556846346595633417663587677199623153619756187566818231346100783863316539586213711, some 22642315325866396429177431876938431382151620329449422915491637352082610481484342696680634921517903135407862945302096),
  (217672966716251712183586487192780524732952571442963706921603052205874857941363744281063539803514554327067157104967, some 4702641388207160417810833759144666761680602152502026534362577877165291278788700941149906059144670062985694632790837),
  (10556747463682750615238756522801454510735420676778072872969455248376035100085302191463593529114515313131717019610656, none),
  (6381768691793409940289965279202025176523334911338484514414237474866803274594275546259739344661142088518387239563010, some 10163890322287997889352867967029862956325197042884002693678046882608009124394064365302799482675741357384775073719171),
  (21403215183965922760797869301225091033184024175971669022969663737527310300162568741710615357687694856422042527231173, none),
  (12561355347608962409846125005103140128561711308972422503689569799051610325002455866812546654139358154437056946099622, some 10251866476391026451565629748078059161521508342712990997280683625274900549818960632930778049575538953713712561187970),
  (35483388980802989325934748916897407759401422558190144125422301037150826298033062864929290519906831761665697295108510, none),
  (10216702791161214477241628677780311012936610733737048661886989830719248773850391228289266380364193457802910487765116, some 36986954112509556291770296105153912343723552100937554304632574213179471769796934574679336435002973489405063499082126),
  (22283747211310303042072934204077427183953803078747332927145874167475768707375218286320029687213032924153846849172191, some 7178907690817557175057943238148476590094105891040014267147069716176752386205051227608412224603950115118328055009713),
  (36824550571053009439503975110720139471303033908712978091025067398498137842276351099315164561315448917631753134874167, none),
  (3645234373409857184020095195133723826732249642711348634839570524423648420881441230464957440685810526005081992074884, none),
  (4235047662060316984357135337067117471394157962071719447834936408426050488386895994827765299508330167979099197531235, some 26633914667573618604779302493229698810871146007084428419916361733071310724452185745219021497128038486843202569060396),
  (27097081948037765282007093163778207009043008097452053011989475112784510850821861533161863682087060091880746056440313, some 29465313662585126055706470686303392081357367563887843718964854953826907609831557186902902356805477191984346876149419),
  (23220567639848156639729583313677810181927543537215531668536342122717326275182389802402667337280671685162778962637093, none),
  (36856729414676896669158561766990743816658402671596283423148541112085877656467648885096314154420871938314519829425120, none),
  (27943809714617480606120726185054936306785338545925251719071524934902169993834979451905294061689581864319393546872448, some 2918228937844885089274816513419889293768769106377226403790941576623647804157007728120709305122367533748719753082346),
  (14471678005375318736158526173114425223224767361970452661478823082871015107506817584965171566940142218772458920047817, some 36424133338853436089475380153476345128199631555843196478358388854303993354022783383477796927858509122335159264172123),
  (4125559279991737528448559419665569168857860855620360966251633112662545255336919764513201865882036299839902700128889, none),
  (18778396219515462627665428670255044343109052979145611462291160952165684848981244894135544333974965295367495798312192, none),
  (5562867899930310681378669445215726434327893327916221990596308570076994260927157779483752214687701724647466038017221, none),
  (20577350282391657489444054424999318177077232140259582475514819309614281305325008530948986940175694385405565563463438, some 5634466221743120946381637830266656098523106681082717923648067147185760247616696487723262824025256050167441516961844),
  (5916033413386237359085480274363843602380370856840162333642097835677636635288304468444168280498648990111736781286201, none),
  (6261742482966572654532955834249813330534972948880044409260312007871900246298096503106501696024160273939774614632244, some 25833391582704592018421509258020463645921768311556302622478155127448164882149451701297657585669374631902936357661942),
  (27603404066224391533158291422949861241966167002703997018165121855741486676927048064033932757777975293999281478303723, none),
  (29334273634531427871431373176838624198651496124213506448251712238180136755144520247286267102694308871048631435221082, none),
  (30382647828697544796744058267203670488920017059144168437339429701196541041739660791775166918808486219117865008129752, some 11105351598626086310063890662295943124829139342367591526949808437296860150187949972333459936696994569712345342780603),
  (757420888347716366680817376118064732082306030145018803871287035143115087066126305784484194986207042768646676229205, none),
  (21754757205407668360633399850215129849206107881514596595518607014410735345684260574827837740808260003408491155601543, some 24120613069175987621313890563583236931852567839222680554667526032203494238159197671618089291978426106319765554846978),
  (6823287813095613434830116451272686199092173702398111846673801957063905543219009472903792788199514941512715894991026, none),
  (20485985351925081819639434414322481485538261414393241545136664076909143163941389014693606817042957975602334623719820, none),
  (28361076106119198508876160961212635215743288547238435378544609231330856917618497035782492465812017998541073326501609, some 16170903286743416894164085204713911899743356039081314800762157229126437812251024756672058121885813975710029177242849),
  (32864560777763141156738227926936678089072561477898732649671727070512293630390242351027301347290238508257688700762010, none),
  (29605829661450745746393435208632039334401917149123314788434021096048210864148695873837480628124086879652555202945380, some 290968645955779168775363069520627079005568317608231497889642606099442601623543363212619244265611131960509630305076),
  (9063707446247527283520599761979484759053601470108214626235618357686677471531632780289070883289045240531325510904788, some 30407574205233039134060045661836641019662736575354467525067383835148171756977710137317536558886110344206247147138778),
  (36039005476972422723190940671112827187840976334804434045447486759181045582824946531175463734446180817167354853447822, some 18867762996414701654051768328038558375249048712790927635653938438180418761858597348365304577599369882527182545603361),
  (20260484869819604337351979492547593534298616855888548531565838919141014292606637650569535388044586294723060788495701, none),
  (13369110489634729581340855229693761929807151967534728291878988335741279967405697465707905512014763660458410684916108, none),
  (30148369066704167403916686016642906678100793125470515960994307056645676221602141966839139124808875277744053563155253, some 6513592752876047089430438375590078845715323504482669907212372251795916399138531541066456519153131804120462677102873),
  (14085321800705555511682265559244403258193843506620012575076748734001000695379496076166295506076228753735478656637520, none)]

theorem p384_chain : runChain p384.p p384.a p384Gx p384Gy p384Chain (p384Gx, p384Gy) =
    some (p384Gx, 31076295234905449226732288810623505625791886221604131073239087501765218571612451104608622327865990668783520461484448) := by decide +kernel

theorem p384_scalar : chainScalar p384Chain 1 + 1 = p384.order := by decide +kernel

theorem p384_cubic : mulQ p384.p p384.a p384.b
    (powQ p384.p p384.a p384.b 384 (0, 1, 0) q384 - (0, 1, 0))
    (23037766613497683937702734290281044719364893268180251583910224888989381657771069200037813904257325918671976092329602,
      8235438212423615602427778915669574859600037698862346933589434399495169446996583974901273360826717582835190849638831,
      12157362177932134139146813183752135342286725243554133716818896354380897714709611791313184492360272402950851405460538) = (1, 0, 0) := by
  decide +kernel

end Curve
end PJC
